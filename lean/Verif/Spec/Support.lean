import Verif.Spec.Sound
/-!
# One more supporter of a claim
-/

namespace TD.Spec
variable {S V X : Type} [DecidableEq S] [DecidableEq V] [DecidableEq X]

/-- `l'` records the claims of `l` and one more: a new source `s` makes a claim `c` that others already make. -/
structure Backed (l l' : List (S × V × X)) (s : S) (c : V × X) : Prop where
  same : ∀ t, t ∈ recorded l' ↔ t ∈ recorded l ∨ t = (s, c)
  new : ∀ t ∈ recorded l, t.1 ≠ s
  made : ∃ t ∈ recorded l, t.2 = c

/-- The result gives belief `b` to the claim `c`. -/
def BeliefIn (r : Result S V X Ex) (c : V × X) (b : ℝ) : Prop :=
  (r.belief.get? c.1).bind (fun d => d.get? c.2) = some (Ex.fin b)

/-- The result gives trust `t` to the source `s`. -/
def TrustIn (r : Result S V X Ex) (s : S) (t : ℝ) : Prop := r.trust.get? s = some (Ex.fin t)

/-- No value implies that another value of the variable is less likely. -/
def NoContradiction (f : Option (V → X → X → Option ℝ)) : Prop :=
  ∀ g, f = some g → ∀ v x y i, g v x y = some i → 0 ≤ i

/-- Implications play no part: there is no implication function, or its influence is 0. -/
def NoImplications (f : Option (V → X → X → Option ℝ)) (rho : ℝ) : Prop := f = none ∨ rho = 0

end TD.Spec
