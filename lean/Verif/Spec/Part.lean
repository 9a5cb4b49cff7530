import Verif.Spec.Sound
import Verif.Spec.Support
/-!
# Independent parts of a dataset
-/

namespace TD.Spec
variable {S V X : Type} [DecidableEq S] [DecidableEq V] [DecidableEq X]

/-- The claims recorded by `l'` are claims of `l`, and no claim recorded by `l` connects the
sources and variables of `l'` to anything else: `l'` is a union of connected components. -/
structure Part (l' l : List (S × V × X)) : Prop where
  sub : ∀ t, t ∈ recorded l' → t ∈ recorded l
  source : ∀ t ∈ recorded l, (∃ t' ∈ recorded l', t'.1 = t.1) → t ∈ recorded l'
  var : ∀ t ∈ recorded l, (∃ t' ∈ recorded l', t'.2.1 = t.2.1) → t ∈ recorded l'

/-- On the labels of `l`, the scores of `r` are those of `r'` times `a` (trust) and `b`
(belief); all of them are numbers. -/
def Multiple (l : List (S × V × X)) (a b : ℝ) (r r' : Result S V X Ex) : Prop :=
  (∀ s ∈ allSources l, ∃ x : ℝ, r'.trust.get? s = some (Ex.fin x) ∧ r.trust.get? s = some (Ex.fin (a * x))) ∧
  ∀ v x, (v, x) ∈ allClaims l → ∃ y : ℝ,
    (r'.belief.get? v).bind (fun d => d.get? x) = some (Ex.fin y) ∧
    (r.belief.get? v).bind (fun d => d.get? x) = some (Ex.fin (b * y))

/-- On the labels of `l`, the scores of `r` and those of `r'` order the sources, and the claims, in the same way. -/
def RankedAlike (l : List (S × V × X)) (r r' : Result S V X Ex) : Prop :=
  (∀ s ∈ allSources l, ∀ s' ∈ allSources l, ∃ t t' u u' : ℝ,
    TrustIn r s t ∧ TrustIn r s' t' ∧ TrustIn r' s u ∧ TrustIn r' s' u' ∧ (t < t' ↔ u < u')) ∧
  ∀ c ∈ allClaims l, ∀ c' ∈ allClaims l, ∃ b b' e e' : ℝ,
    BeliefIn r c b ∧ BeliefIn r c' b' ∧ BeliefIn r' c e ∧ BeliefIn r' c' e' ∧ (b < b' ↔ e < e')

/-- Algorithms whose scores of a part do not depend on the rest, except for a factor. -/
def Kind.IsLocal : Kind Ex → Prop
  | .sums | .averageLog | .investment _ | .pooledInvestment _ | .truthFinder .. => True
  | .crh _ | .unboundedSums => False

end TD.Spec
