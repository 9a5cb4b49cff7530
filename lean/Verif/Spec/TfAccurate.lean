import Verif.Spec.Reports
import Verif.Spec.Scores
/-!
# Iterations of TruthFinder computed with small errors
-/

namespace TD.Spec
variable {S V X : Type} [DecidableEq S] [DecidableEq V] [DecidableEq X] {R : Rounding}

/-- The trust score that the result reports for `s`. -/
def HasTrust (r : Result S V X (FP R)) (s : S) (x : FP R) : Prop := r.trust.get? s = some x

/-- The belief that the result reports in the claim `c`. -/
def HasBelief (r : Result S V X (FP R)) (c : V × X) (x : FP R) : Prop :=
  (r.belief.get? c.1).bind (fun d => d.get? c.2) = some x

/-- `r'` is what an iteration of TruthFinder (without implications, dampening factor `gamma`) makes of `r`, but for small errors.
* An iteration only takes place if no trust score is 1.
* If the trust scores of all sources of a claim are below 1, the new belief in it differs from the exact one for these trust
  scores by at most `(n + 21) / 2 ^ 52`, where `n` is the number of its sources.
* If one of them is above 1 or NaN, the new belief is NaN.
* If the beliefs in all claims of a source are numbers, its new trust differs from their mean by at most `(n + 2) / 2 ^ 52`, where `n`
  is the number of its claims; if one of them is NaN, so is its new trust. -/
structure TfAccurate (l : List (S × V × X)) (gamma : ℝ) (r r' : Result S V X (FP R)) : Prop where
  notOne : ∀ s ∈ allSources l, ¬ HasTrust r s (FP.fin 1)
  belief : ∀ c ∈ allClaims l, ∀ t : S → ℝ, (∀ s ∈ sourcesOf l c, HasTrust r s (FP.fin (t s)) ∧ t s < 1) →
    ∃ b, HasBelief r' c (FP.fin b) ∧ 1 / 2 ≤ b ∧ b ≤ 1 ∧
      |b - 1 / (1 + Real.exp (-(gamma * ∑ s ∈ sourcesOf l c, -Real.log (1 - t s))))| ≤ ((sourcesOf l c).card + 21) / 2 ^ 52
  noBelief : ∀ c ∈ allClaims l, ∀ s ∈ sourcesOf l c, (HasTrust r s FP.nan ∨ ∃ y, 1 < y ∧ HasTrust r s (FP.fin y)) →
    HasBelief r' c FP.nan
  trust : ∀ s ∈ allSources l, ∀ b : V × X → ℝ, (∀ c ∈ claimsOf l s, HasBelief r' c (FP.fin (b c))) →
    ∃ t, HasTrust r' s (FP.fin t) ∧ |t - (∑ c ∈ claimsOf l s, b c) / (claimsOf l s).card| ≤ ((claimsOf l s).card + 2) / 2 ^ 52
  noTrust : ∀ s ∈ allSources l, ∀ c ∈ claimsOf l s, HasBelief r' c FP.nan → HasTrust r' s FP.nan

/-- Every trust score is NaN or a number that is at least 1/4. -/
def TrustRange (l : List (S × V × X)) (r : Result S V X (FP R)) : Prop :=
  ∀ s ∈ allSources l, HasTrust r s FP.nan ∨ ∃ y : ℝ, HasTrust r s (FP.fin y) ∧ 1 / 4 ≤ y

/-- Every source and claim has a score that is a number and differs from the exact score by at most `ε`. -/
def AbsClose (l : List (S × V × X)) (r : Result S V X (FP R)) (p : Scores S V X) (ε : ℝ) : Prop :=
  (∀ s ∈ allSources l, ∃ y, HasTrust r s (FP.fin y) ∧ |y - p.1 s| ≤ ε) ∧
  ∀ c ∈ allClaims l, ∃ y, HasBelief r c (FP.fin y) ∧ |y - p.2 c| ≤ ε

/-- The scores of TruthFinder without implications after `n` iterations, computed exactly. -/
noncomputable def tfExact (l : List (S × V × X)) (gamma t0 : ℝ) (n : Nat) : Scores S V X :=
  (tfStep l (fun _ _ _ => 0) 0 gamma)^[n] ((fun _ => t0), fun _ => 0)

end TD.Spec
