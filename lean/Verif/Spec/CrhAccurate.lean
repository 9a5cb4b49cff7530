import Verif.Spec.Reports
/-!
# Iterations of CRH computed with small errors
-/

namespace TD.Spec
variable {S V X : Type} [DecidableEq S] [DecidableEq V] [DecidableEq X] {R : Rounding}

/-- The result has exactly the sources and claims of the triples `l`, and its scores are the finite numbers `p`. -/
def ShowsScores (l : List (S × V × X)) (r : Result S V X (FP R)) (p : Scores S V X) : Prop :=
  (∀ s, r.trust.get? s = if s ∈ allSources l then some (FP.fin (p.1 s)) else none) ∧
  (∀ v x, (r.belief.get? v).bind (fun d => d.get? x) = if (v, x) ∈ allClaims l then some (FP.fin (p.2 (v, x))) else none)

/-- `p` is what an iteration of CRH makes of the beliefs `b`, but for small errors: every trust score differs from the exact
one for these beliefs by at most `(4 * claims + sources + 144) / 2 ^ 52`, and every belief from the share of the trust that
the sources of the claim have by at most the fraction `(2 * sources + 1) / 2 ^ 52` of it. -/
structure CrhAccurate (l : List (S × V × X)) (eps : ℝ) (b : V × X → ℝ) (p : Scores S V X) : Prop where
  trust : ∀ s ∈ allSources l,
    |p.1 s - (eps - Real.log ((eps + loss l b s) / ∑ r ∈ allSources l, (eps + loss l b r)))| ≤
      (4 * (allClaims l).card + (allSources l).card + 144) / 2 ^ 52
  belief : ∀ c ∈ allClaims l,
    |p.2 c - (∑ s ∈ sourcesOf l c, p.1 s) / ∑ r ∈ allSources l, p.1 r| ≤
      (∑ s ∈ sourcesOf l c, p.1 s) / (∑ r ∈ allSources l, p.1 r) * ((2 * (allSources l).card + 1) / 2 ^ 52)

/-- The scores before and after each of `n` iterations of CRH, computed with small errors. -/
structure CrhChain (l : List (S × V × X)) (eps : ℝ) (n : Nat) (p : Nat → Scores S V X) : Prop where
  start : ∀ c ∈ allClaims l, |(p 0).2 c - nSources l c / (allSources l).card| ≤ nSources l c / (allSources l).card / 2 ^ 52
  next : ∀ j < n, CrhAccurate l eps (p j).2 (p (j + 1))

/-- Thresholds of at least this are large enough for CRH in double precision with `n` sources and `m` claims. -/
noncomputable def crhFloor (n m : Nat) (eps : ℝ) : ℝ :=
  64 * n * m ^ 2 * ((32 * m + 10 * n + 1153) / 2 ^ 52) / eps

/-- Enough iterations of CRH in double precision for `n` sources and `m` claims to come within the threshold `th`. -/
noncomputable def crhSteps (n m : Nat) (eps th : ℝ) : ℝ :=
  2048 * n ^ 3 * m ^ 2 * (eps + 4 * m) * (eps + Real.log n) / (eps ^ 3 * th ^ 2) + 2

end TD.Spec
