import Verif.Spec.Reports
import Verif.Spec.Distance
/-!
# When computed scores are close to exact scores
-/

namespace TD.Spec
variable {S V X : Type} [DecidableEq S] [DecidableEq V] [DecidableEq X] {R : Rounding}

/-- The result has exactly the sources and claims of the triples `l`; every score is a finite number that
differs from the exact score `p` by at most the fraction `δ` of it. -/
def CloseTo (l : List (S × V × X)) (r : Result S V X (FP R)) (p : Scores S V X) (δ : ℝ) : Prop :=
  (∀ s, if s ∈ allSources l then ∃ y, r.trust.get? s = some (FP.fin y) ∧ |y - p.1 s| ≤ p.1 s * δ
    else r.trust.get? s = none) ∧
  (∀ v x, if (v, x) ∈ allClaims l then
      ∃ y, (r.belief.get? v).bind (fun d => d.get? x) = some (FP.fin y) ∧ |y - p.2 (v, x)| ≤ p.2 (v, x) * δ
    else (r.belief.get? v).bind (fun d => d.get? x) = none)

/-- The result `r`, computed with rounding, has the same sources and claims as the result `r'`, computed exactly, and each of
its scores is a finite number that differs from the exact one by at most the fraction `δ` of it. -/
def CloseRuns (r : Result S V X (FP R)) (r' : Result S V X Ex) (δ : ℝ) : Prop :=
  (∀ s, r.trust.get? s = none ∧ r'.trust.get? s = none ∨
    ∃ x y, r'.trust.get? s = some (Ex.fin x) ∧ r.trust.get? s = some (FP.fin y) ∧ |y - x| ≤ x * δ) ∧
  (∀ v z, (r.belief.get? v).bind (fun d => d.get? z) = none ∧ (r'.belief.get? v).bind (fun d => d.get? z) = none ∨
    ∃ x y, (r'.belief.get? v).bind (fun d => d.get? z) = some (Ex.fin x) ∧
      (r.belief.get? v).bind (fun d => d.get? z) = some (FP.fin y) ∧ |y - x| ≤ x * δ)

/-- Bounds on the sizes of the input: no source has more than `a` claims, no claim more than `b` sources, and
`2 ^ w` is at least the product of the numbers of sources and claims. -/
structure Sizes (l : List (S × V × X)) (a b w : Nat) : Prop where
  perSource : ∀ s, (claimsOf l s).card ≤ a
  perClaim : ∀ c, (sourcesOf l c).card ≤ b
  total : (allSources l).card * (allClaims l).card ≤ 2 ^ w
  big : (allSources l).card ^ 2 * (allClaims l).card ≤ 2 ^ 53

/-- By how much the trust scores change in iteration `j + 1` of an algorithm that starts with the scores `x0`. -/
noncomputable def stepChange (m : Measure) (l : List (S × V × X)) (step : Scores S V X → Scores S V X) (x0 : Scores S V X)
    (j : Nat) : ℝ :=
  distance m (allSources l) (step^[j] x0).1 (step^[j + 1] x0).1

/-- A bound on the error of a distance computed from scores that went through at most `K` roundings. -/
noncomputable def blur (m : Measure) (l : List (S × V × X)) (K : Nat) : ℝ :=
  match m with
  | .cosine => (4 * (allSources l).card * (K + 2) + 16) / 2 ^ 51
  | _ => (allSources l).card * ((allSources l).card + 2 * K + 3) / 2 ^ 51

/-- A bound on the error of a distance computed from trust scores that are wrong by at most `ε` (and at least 1/4). -/
noncomputable def haze (m : Measure) (l : List (S × V × X)) (ε : ℝ) : ℝ :=
  match m with
  | .cosine => ((allSources l).card + 2) / 2 ^ 48 + 16 * ε
  | _ => (allSources l).card * (((allSources l).card + 3) / 2 ^ 51 + 2 * ε)

/-- How far apart, in the given measure, two vectors of `n` entries can be whose entries differ by at most 1: a bound. -/
noncomputable def spread (m : Measure) (n : Nat) : ℝ :=
  match m with
  | .l1 => n
  | .l2 => Real.sqrt n
  | .lInf => 1
  | .cosine => n

/-- All scores of the sources and claims are at least `ε`. -/
def AtLeast (l : List (S × V × X)) (x : Scores S V X) (ε : ℝ) : Prop :=
  (∀ s ∈ allSources l, ε ≤ x.1 s) ∧ ∀ c ∈ allClaims l, ε ≤ x.2 c

end TD.Spec
