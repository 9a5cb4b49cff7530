import Mathlib.Data.Real.Basic
import Mathlib.Algebra.Ring.Parity
import Mathlib.Algebra.Order.Field.Basic
/-!
# The numbers of IEEE 754 binary64
-/

namespace TD.Spec

/-- `y` is the value of a finite double: 53 binary digits, exponents from -1074 to 971. -/
def IsDouble (y : ℝ) : Prop := ∃ m e : ℤ, y = m * 2 ^ e ∧ |m| < 2 ^ 53 ∧ -1074 ≤ e ∧ e ≤ 971

/-- The last of its 53 digits is 0. -/
def EvenDouble (y : ℝ) : Prop :=
  ∃ m e : ℤ, y = m * 2 ^ e ∧ |m| < 2 ^ 53 ∧ -1074 ≤ e ∧ e ≤ 971 ∧ Even m

/-- `y` is the double nearest to `x`; if two are nearest, the even one. -/
def Nearest (x y : ℝ) : Prop :=
  IsDouble y ∧ (∀ z, IsDouble z → |x - y| ≤ |x - z|) ∧
  ∀ z, IsDouble z → z ≠ y → |x - z| = |x - y| → EvenDouble y

end TD.Spec
