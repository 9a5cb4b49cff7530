import Verif.Spec.Sound
/-!
# Claims with more support
-/

namespace TD.Spec
variable {S V X : Type} [DecidableEq S] [DecidableEq V] [DecidableEq X]

/-- Every source of claim `c` is a source of claim `c'`. -/
def Supports (l : List (S × V × X)) (c c' : V × X) : Prop :=
  ∀ s, (s, c) ∈ recorded l → (s, c') ∈ recorded l

/-- Claims with more sources (in the sense of inclusion) have at least as much belief; all
beliefs are finite. -/
def Dominance (l : List (S × V × X)) (r : Result S V X Ex) : Prop :=
  ∀ v x v' x', (v, x) ∈ allClaims l → Supports l (v, x) (v', x') → ∃ b b' : ℝ,
    (r.belief.get? v).bind (fun d => d.get? x) = some (Ex.fin b) ∧
    (r.belief.get? v').bind (fun d => d.get? x') = some (Ex.fin b') ∧ b ≤ b'

/-- Algorithms for which more support means more belief.  For Investment the exponent must
not be negative; for TruthFinder there must be no implications, and the damping factor must
not be negative.  PooledInvestment is not among them. -/
def Supportive (f : Option (V → X → X → Option ℝ)) : Kind Ex → Prop
  | .sums | .averageLog | .crh _ | .unboundedSums => True
  | .investment g => ∃ y : ℝ, g = Ex.fin y ∧ 0 ≤ y
  | .pooledInvestment _ => False
  | .truthFinder _ gamma _ => f = none ∧ ∃ y : ℝ, gamma = Ex.fin y ∧ 0 ≤ y

end TD.Spec
