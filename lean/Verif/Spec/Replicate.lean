import Verif.Spec.Sound
/-!
# Replicated evidence
-/

namespace TD.Spec
attribute [-instance] instBEqProd
variable {S V X : Type} [DecidableEq S] [DecidableEq V] [DecidableEq X]

/-- `l'` says `m * n` times what `l` says: every source has `m` copies `(s, 0), …, (s, m - 1)`, every
variable has `n` copies, and each copy of a source claims about each copy of a variable what
the source claims about the variable; nothing else is claimed. -/
def Replicated (m n : Nat) (l : List (S × V × X)) (l' : List ((S × Nat) × (V × Nat) × X)) : Prop :=
  ∀ s i v j x, ((s, i), (v, j), x) ∈ recorded l' ↔ i < m ∧ j < n ∧ (s, v, x) ∈ recorded l

/-- A dataset in which everything recorded by `l` is replicated. -/
def copiesOf (m n : Nat) (l : List (S × V × X)) : List ((S × Nat) × (V × Nat) × X) :=
  (recorded l).flatMap fun t => (List.range m).flatMap fun i => (List.range n).map fun j =>
    ((t.1, i), (t.2.1, j), t.2.2)

/-- The result for the replicated dataset: each copy has the score of the original, and
nothing else has a score. -/
def Copies (m n : Nat) (r : Result S V X Ex) (r' : Result (S × Nat) (V × Nat) X Ex) : Prop :=
  (∀ s i, r'.trust.get? (s, i) = if i < m then r.trust.get? s else none) ∧
  ∀ v j x, (r'.belief.get? (v, j)).bind (fun d => d.get? x) =
    if j < n then (r.belief.get? v).bind (fun d => d.get? x) else none

/-- The implication function that treats each copy of a variable as the variable. -/
def copyImp (f : Option (V → X → X → Option ℝ)) : Option (V × Nat → X → X → Option ℝ) :=
  f.map fun g v => g v.1

/-- Algorithms whose scores do not change when all the evidence is replicated: with `m` copies of
every source, and `n` copies of every variable. -/
def Kind.Replicable (m n : Nat) : Kind Ex → Prop
  | .sums | .investment _ | .pooledInvestment _ => True
  | .averageLog => n = 1
  | .truthFinder .. => m = 1
  | .crh _ | .unboundedSums => False

end TD.Spec
