import Verif.Spec.Scores
import Verif.Model.Iterator
import Mathlib.Analysis.SpecialFunctions.Sqrt
/-!
# Distances between score assignments

`F` is the finite index set (positions of a vector, or sources).
-/

namespace TD.Spec
open Finset

variable {A : Type}

/-- `x` forced into `[0, 1]`. -/
noncomputable def clamp (x : ℝ) : ℝ := max 0 (min 1 x)

/-- Euclidean length. -/
noncomputable def len2 (F : Finset A) (v : A → ℝ) : ℝ := Real.sqrt (∑ a ∈ F, v a ^ 2)

/-- The four distance measures of the library. -/
noncomputable def distance (m : Measure) (F : Finset A) (v w : A → ℝ) : ℝ :=
  match m with
  | .l1 => ∑ a ∈ F, |v a - w a|
  | .l2 => len2 F fun a => v a - w a
  | .lInf => top F fun a => |v a - w a|
  | .cosine => if len2 F v = 0 ∨ len2 F w = 0 then 1
      else clamp (1 - (∑ a ∈ F, v a * w a) / (len2 F v * len2 F w))

end TD.Spec
