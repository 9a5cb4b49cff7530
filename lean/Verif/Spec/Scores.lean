import Verif.Spec.Dataset
import Mathlib.Data.Finset.Lattice.Fold
import Mathlib.Data.Finset.Dedup
import Mathlib.Algebra.BigOperators.Group.Finset.Basic
import Mathlib.Analysis.SpecialFunctions.Pow.Real
import Mathlib.Analysis.SpecialFunctions.Log.Basic
/-!
# The published algorithms

Textbook formulas over real numbers, on labels: no identifiers, matrices, vectors
or orders.  A claim is a pair (variable, value).  `Spec` knows nothing about the
model.
-/

namespace TD.Spec
open Finset

variable {S V X : Type} [DecidableEq S] [DecidableEq V] [DecidableEq X]

/-- Sources that claim something. -/
def allSources (l : List (S × V × X)) : Finset S := ((recorded l).map fun t => t.1).toFinset

/-- Claims made by someone. -/
def allClaims (l : List (S × V × X)) : Finset (V × X) := ((recorded l).map fun t => t.2).toFinset

/-- Claims made by a source. -/
def claimsOf (l : List (S × V × X)) (s : S) : Finset (V × X) :=
  (allClaims l).filter fun c => (s, c) ∈ recorded l

/-- Sources making a claim. -/
def sourcesOf (l : List (S × V × X)) (c : V × X) : Finset S :=
  (allSources l).filter fun s => (s, c) ∈ recorded l

/-- The claims about the variable of `c` (including `c`). -/
def rivals (l : List (S × V × X)) (c : V × X) : Finset (V × X) :=
  (allClaims l).filter fun d => c.1 = d.1

/-- Largest value of a function on a finite set (0 on the empty set). -/
noncomputable def top {A : Type} (F : Finset A) (f : A → ℝ) : ℝ :=
  if h : F.Nonempty then F.sup' h f else 0

/-- Divide by the largest value. -/
noncomputable def scaled {A : Type} (F : Finset A) (f : A → ℝ) (a : A) : ℝ := f a / top F f

/-- Trust of every source and belief in every claim. -/
abbrev Scores (S V X : Type) := (S → ℝ) × (V × X → ℝ)

/-- Number of claims of a source. -/
noncomputable def nClaims (l : List (S × V × X)) (s : S) : ℝ := (claimsOf l s).card

/-- Number of sources of a claim. -/
noncomputable def nSources (l : List (S × V × X)) (c : V × X) : ℝ := (sourcesOf l c).card

/-! ### Prior beliefs -/

/-- 1/2 everywhere. -/
noncomputable def priorFixed : V × X → ℝ := fun _ => 1 / 2
/-- Number of sources of the claim. -/
noncomputable def priorCount (l : List (S × V × X)) : V × X → ℝ := nSources l
/-- Share of the claim among all sources claiming something about the variable. -/
noncomputable def priorVoted (l : List (S × V × X)) (c : V × X) : ℝ :=
  nSources l c / ∑ d ∈ rivals l c, nSources l d
/-- One over the number of claims about the variable. -/
noncomputable def priorUniform (l : List (S × V × X)) (c : V × X) : ℝ := 1 / (rivals l c).card

/-! ### One iteration of each algorithm -/

/-- Trust as the sum of beliefs, belief as the sum of trusts. -/
def sumTrust (l : List (S × V × X)) (b : V × X → ℝ) (s : S) : ℝ := ∑ c ∈ claimsOf l s, b c
/-- See `sumTrust`. -/
def sumBelief (l : List (S × V × X)) (t : S → ℝ) (c : V × X) : ℝ := ∑ s ∈ sourcesOf l c, t s

/-- Normalise both scores by their largest value. -/
noncomputable def normBoth (l : List (S × V × X)) (p : Scores S V X) : Scores S V X :=
  (scaled (allSources l) p.1, scaled (allClaims l) p.2)

/-- Sums (Hubs and Authorities). -/
noncomputable def sumsStep (l : List (S × V × X)) (p : Scores S V X) : Scores S V X :=
  let t := sumTrust l p.2
  normBoth l (t, sumBelief l t)

/-- AverageLog. -/
noncomputable def avlogStep (l : List (S × V × X)) (p : Scores S V X) : Scores S V X :=
  let t := fun s => Real.log (nClaims l s) / nClaims l s * sumTrust l p.2 s
  normBoth l (t, sumBelief l t)

/-- What is invested in a claim when each source shares its trust equally among
its claims. -/
noncomputable def invested (l : List (S × V × X)) (t : S → ℝ) (c : V × X) : ℝ :=
  ∑ s ∈ sourcesOf l c, t s / nClaims l s

/-- Trust regained from the claims, in proportion to the share of the investment. -/
noncomputable def regained (l : List (S × V × X)) (p : Scores S V X) (s : S) : ℝ :=
  ∑ c ∈ claimsOf l s, p.2 c * ((p.1 s / nClaims l s) / invested l p.1 c)

/-- Investment with growth `x ^ g`. -/
noncomputable def investStep (l : List (S × V × X)) (g : ℝ) (p : Scores S V X) : Scores S V X :=
  let t := regained l p
  normBoth l (t, fun c => invested l t c ^ g)

/-- PooledInvestment. -/
noncomputable def pooledStep (l : List (S × V × X)) (g : ℝ) (p : Scores S V X) : Scores S V X :=
  let t := regained l p
  let h := invested l t
  normBoth l (t, fun c => h c * (h c ^ g / ∑ d ∈ rivals l c, h d ^ g))

/-- TruthFinder: `imp v x y` is the implication from value `x` to value `y` of
variable `v` (0 if there is none). -/
noncomputable def tfStep (l : List (S × V × X)) (imp : V → X → X → ℝ) (rho gamma : ℝ)
    (p : Scores S V X) : Scores S V X :=
  let tau := fun s => -Real.log (1 - p.1 s)
  let sigma := fun c => ∑ s ∈ sourcesOf l c, tau s
  let sigma' := fun c => sigma c + rho * ∑ d ∈ (rivals l c).erase c, imp c.1 d.2 c.2 * sigma d
  let b := fun c => 1 / (1 + Real.exp (-gamma * sigma' c))
  (fun s => (∑ c ∈ claimsOf l s, b c) / nClaims l s, b)

/-- Squared distance between the beliefs and the claims of a source. -/
noncomputable def loss (l : List (S × V × X)) (b : V × X → ℝ) (s : S) : ℝ :=
  ∑ c ∈ claimsOf l s, ∑ d ∈ rivals l c, (b d - if c = d then 1 else 0) ^ 2

/-- CRH with tolerance `eps`. -/
noncomputable def crhStep (l : List (S × V × X)) (eps : ℝ) (p : Scores S V X) : Scores S V X :=
  let a := fun s => eps + loss l p.2 s
  let t := fun s => eps - Real.log (a s / ∑ r ∈ allSources l, a r)
  (t, fun c => (∑ s ∈ sourcesOf l c, t s) / ∑ r ∈ allSources l, t r)

/-- UnboundedSums: Sums without normalisation. -/
def usumsStep (l : List (S × V × X)) (p : Scores S V X) : Scores S V X :=
  let t := sumTrust l p.2
  (t, sumBelief l t)

/-- Majority voting. -/
noncomputable def voting (l : List (S × V × X)) : Scores S V X :=
  (fun _ => 1, scaled (allClaims l) (nSources l))

end TD.Spec
