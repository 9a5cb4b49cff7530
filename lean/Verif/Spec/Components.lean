import Verif.Spec.Dataset
import Mathlib.Combinatorics.SimpleGraph.Connectivity.Connected
import Mathlib.SetTheory.Cardinal.Finite
/-!
# The graph of a dataset and its connected components
-/

namespace TD.Spec
variable {S V X : Type} [DecidableEq S] [DecidableEq V] [DecidableEq X]

/-- Nodes of the graph drawn for a dataset. -/
inductive Node (S V X : Type)
  | source (s : S)
  | claim (v : V) (x : X)
  | var (v : V)

/-- The nodes of the dataset of the triples `l`. -/
def Present (l : List (S × V × X)) : Node S V X → Prop
  | .source s => s ∈ sources l
  | .claim v x => (v, x) ∈ claims l
  | .var v => v ∈ vars l

/-- Edges: a source and a claim it makes; a claim and its variable. -/
def Edge (l : List (S × V × X)) : Node S V X → Node S V X → Prop
  | .source s, .claim v x => (s, v, x) ∈ recorded l
  | .claim v _, .var w => v = w
  | _, _ => False

/-- The undirected graph of the dataset of the triples `l`. -/
def graph (l : List (S × V × X)) : SimpleGraph {n : Node S V X // Present l n} where
  Adj a b := Edge l a.1 b.1 ∨ Edge l b.1 a.1
  symm := ⟨fun _ _ h => h.symm⟩
  loopless := ⟨by
    rintro ⟨n, _⟩ h
    cases n <;> simp [Edge] at h⟩

/-- Number of connected components of the dataset's graph. -/
noncomputable def components (l : List (S × V × X)) : Nat := Nat.card (graph l).ConnectedComponent

end TD.Spec
