import Verif.Spec.Dataset
import Verif.Model.Algorithm
/-!
# Results that differ only in the order of their dictionaries
-/

namespace TD.Spec
variable {S V X α : Type} [DecidableEq S] [DecidableEq V] [DecidableEq X]

/-- The same sources with the same trust, the same variables and values with the same belief,
the same time and iterations: Python's `==` on all attributes. -/
structure SameResult (r r' : Result S V X α) : Prop where
  trust : ∀ s, r.trust.get? s = r'.trust.get? s
  vars : ∀ v, (r.belief.get? v).isSome = (r'.belief.get? v).isSome
  belief : ∀ v x, (r.belief.get? v).bind (fun d => d.get? x) = (r'.belief.get? v).bind (fun d => d.get? x)
  time : r.time = r'.time
  iterations : r.iterations = r'.iterations

/-- The same exception, or values related by `P`. -/
def SameOutcome {A : Type} (P : A → A → Prop) : Except PyErr A → Except PyErr A → Prop
  | .ok a, .ok b => P a b
  | .error e, .error e' => e = e'
  | _, _ => False

/-- The triples record the same claims. -/
def SameClaims (l l' : List (S × V × X)) : Prop := ∀ t, t ∈ recorded l ↔ t ∈ recorded l'

end TD.Spec
