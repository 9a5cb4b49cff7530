import Verif.Model.Synthetic
import Verif.Model.Float
import Verif.Spec.Matrix
/-!
# Synthetic data: valid parameters and allowed claims
-/

namespace TD.Spec

/-- The parameters documented as valid (a claim probability of NaN slips through
the checks of the code). -/
def AcceptedArgs {R : Rounding} (a : SynthArgs (FP R)) : Prop :=
  (∃ trust, a.trust = some trust ∧ trust ≠ [] ∧ ∀ t ∈ trust, ∃ x : ℝ, t = FP.fin x ∧ 0 ≤ x ∧ x ≤ 1) ∧
  (a.claimProbability = FP.nan ∨ ∃ p : ℝ, a.claimProbability = FP.fin p ∧ 0 < p ∧ p ≤ 1) ∧
  2 ≤ a.domainSize ∧ 1 ≤ a.numVariables

/-- `random_sample` returns numbers in `[0, 1)`. -/
def UnitDraws {R : Rounding} (g : Rng (FP R)) : Prop := ∀ k, ∃ x : ℝ, g.unit k = FP.fin x ∧ 0 ≤ x ∧ x < 1

/-- Probability with which a source of trust `t` claims `v` if `tv` is true and
there are `d` values. -/
noncomputable def claimProb (t : ℝ) (tv d v : Nat) : ℝ :=
  if v = tv then t else (1 - t) / ((d : ℝ) - 1)

/-- Some value is claimed in the cell. -/
def Filled {X : Type} (g : Grid X) (i j : Nat) : Prop := ∃ v, Holds g i j v

/-- What a synthetic dataset made from trust values `trust`, `m` variables and
domain size `d` may look like. -/
structure SynthShape {α : Type} [Arith α] (trust : List ℝ) (m d : Nat) (s : SupervisedMatrix Nat α) : Prop where
  /-- one row per source -/
  rows : s.data.sv.length = trust.length
  /-- one column per variable -/
  cols : Rect m s.data.sv
  /-- the dataset is that of the matrix -/
  data : MatrixDataset.mk' (.two s.data.sv) = .ok s.data
  /-- every variable is claimed -/
  every_variable : ∀ j < m, ∃ i, Filled s.data.sv i j
  /-- every source claims -/
  every_source : ∀ i < trust.length, ∃ j, Filled s.data.sv i j
  /-- exactly the variables `0 .. m-1` have a known true value, in the domain -/
  truth : ∀ j, (∃ v, s.values.get? j = some v) ↔ j < m
  truth_domain : ∀ j v, s.values.get? j = some v → v < d
  /-- claimed values are in the domain -/
  domain : ∀ i j v, Holds s.data.sv i j v → v < d
  /-- a source of trust 1 makes true claims only -/
  truthful : ∀ i j v, trust[i]? = some 1 → Holds s.data.sv i j v → (s.values.get? j = some v)
  /-- a source of trust 0 makes false claims only -/
  deceitful : ∀ i j v, trust[i]? = some 0 → Holds s.data.sv i j v → (s.values.get? j ≠ some v)

end TD.Spec
