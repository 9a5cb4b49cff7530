import Verif.Model.Float
import Mathlib.Data.EReal.Inv
import Mathlib.Analysis.SpecialFunctions.Log.ERealExp
import Mathlib.Analysis.SpecialFunctions.Log.ENNRealLog
/-!
# The arithmetic of special values against the extended reals

The operations of `FNum` are tables of cases. These theorems say that the tables are those of the extended reals of Mathlib wherever the
result is not NaN, exactly when it is NaN, and that rounding concerns finite results only.
-/

namespace TD.FNum
open Classical

/-- Rounding a finite value; the special values stay. -/
def round (R : Rounding) : FNum → FNum
  | fin x => R.rnd x
  | x => x

theorem add_round (R : Rounding) (x y : FNum) : add R x y = round R (add .exact x y) := by
  cases x <;> cases y <;> rfl

theorem mul_round (R : Rounding) (x y : FNum) : mul R x y = round R (mul .exact x y) := by
  cases x <;> cases y <;> simp only [mul, round, infOf] <;> (repeat' split) <;> simp_all [Rounding.exact]

/-- In a quotient the value 0 can also come from an infinite divisor. -/
theorem div_round (R : Rounding) (x y : FNum) : div R x y = round R (div .exact x y) := by
  cases x <;> cases y <;> simp only [div, round, infOf, R.zero] <;> (repeat' split) <;> simp_all [Rounding.exact]

/-- A sum is NaN only if a summand is NaN or infinities of opposite sign are added. -/
theorem add_nan (x y : FNum) : add .exact x y = nan ↔
    x = nan ∨ y = nan ∨ (x = pinf ∧ y = ninf) ∨ (x = ninf ∧ y = pinf) := by
  cases x <;> cases y <;> simp [add, Rounding.exact]

theorem add_val {x y : FNum} (h : add .exact x y ≠ nan) : (add .exact x y).toEReal = x.toEReal + y.toEReal := by
  cases x <;> cases y <;> simp_all [add, toEReal, Rounding.exact]

/-- A product is NaN only if a factor is NaN or zero is multiplied by an infinity. -/
theorem mul_nan (x y : FNum) : mul .exact x y = nan ↔ x = nan ∨ y = nan ∨
    (x = fin 0 ∧ (y = pinf ∨ y = ninf)) ∨ (y = fin 0 ∧ (x = pinf ∨ x = ninf)) := by
  cases x <;> cases y <;> simp [mul, infOf, Rounding.exact] <;> split <;> simp_all

theorem mul_val {x y : FNum} (h : mul .exact x y ≠ nan) : (mul .exact x y).toEReal = x.toEReal * y.toEReal := by
  have key : ∀ y : ℝ, y ≠ 0 → (infOf y).toEReal = ⊤ * (y : EReal) ∧ (infOf (-y)).toEReal = ⊥ * (y : EReal) := by
    intro y hy
    rcases lt_or_gt_of_ne hy with h | h
    · rw [EReal.top_mul_coe_of_neg h, EReal.bot_mul_coe_of_neg h]
      simp [infOf, toEReal, h, not_lt.2 h.le]
    · rw [EReal.top_mul_coe_of_pos h, EReal.bot_mul_coe_of_pos h]
      simp [infOf, toEReal, h, not_lt.2 h.le]
  cases x with
  | nan => simp [mul] at h
  | pinf =>
    cases y with
    | nan => simp [mul] at h
    | pinf => simp [mul, toEReal]
    | ninf => simp [mul, toEReal]
    | fin y =>
      by_cases hy : y = 0
      · simp [mul, hy] at h
      · simp only [mul, hy, if_false]; exact (key y hy).1
  | ninf =>
    cases y with
    | nan => simp [mul] at h
    | pinf => simp [mul, toEReal]
    | ninf => simp [mul, toEReal]
    | fin y =>
      by_cases hy : y = 0
      · simp [mul, hy] at h
      · simp only [mul, hy, if_false]; exact (key y hy).2
  | fin x =>
    cases y with
    | nan => simp [mul] at h
    | pinf =>
      by_cases hy : x = 0
      · simp [mul, hy] at h
      · simp only [mul, hy, if_false]; rw [mul_comm]; exact (key x hy).1
    | ninf =>
      by_cases hy : x = 0
      · simp [mul, hy] at h
      · simp only [mul, hy, if_false]; rw [mul_comm]; exact (key x hy).2
    | fin y => simp [mul, toEReal, Rounding.exact]

/-- A quotient is NaN only if one of the numbers is, or for `0 / 0` and `∞ / ∞`. -/
theorem div_nan (x y : FNum) : div .exact x y = nan ↔ x = nan ∨ y = nan ∨ (x = fin 0 ∧ y = fin 0) ∨
    ((x = pinf ∨ x = ninf) ∧ (y = pinf ∨ y = ninf)) := by
  cases x <;> cases y <;> simp only [div, infOf, Rounding.exact] <;> (repeat' split) <;> simp_all

/-- Except for division by zero a quotient is that of the extended reals. -/
theorem div_val {x y : FNum} (h : div .exact x y ≠ nan) (hy : y ≠ fin 0) :
    (div .exact x y).toEReal = x.toEReal / y.toEReal := by
  cases x with
  | nan => simp [div] at h
  | pinf =>
    cases y with
    | nan => simp [div] at h
    | pinf => simp [div] at h
    | ninf => simp [div] at h
    | fin y =>
      have h0 : y ≠ 0 := fun e => hy (by rw [e])
      rcases lt_or_gt_of_ne h0 with h | h
      · simp [div, toEReal, h, EReal.top_div_of_neg_ne_bot (EReal.coe_neg'.2 h) (EReal.coe_ne_bot y)]
      · simp [div, toEReal, not_lt.2 h.le, EReal.top_div_of_pos_ne_top (EReal.coe_pos.2 h) (EReal.coe_ne_top y)]
  | ninf =>
    cases y with
    | nan => simp [div] at h
    | pinf => simp [div] at h
    | ninf => simp [div] at h
    | fin y =>
      have h0 : y ≠ 0 := fun e => hy (by rw [e])
      rcases lt_or_gt_of_ne h0 with h | h
      · simp [div, toEReal, h, EReal.bot_div_of_neg_ne_bot (EReal.coe_neg'.2 h) (EReal.coe_ne_bot y)]
      · simp [div, toEReal, not_lt.2 h.le, EReal.bot_div_of_pos_ne_top (EReal.coe_pos.2 h) (EReal.coe_ne_top y)]
  | fin x =>
    cases y with
    | nan => simp [div] at h
    | pinf => simp [div, toEReal]
    | ninf => simp [div, toEReal]
    | fin y =>
      have h0 : y ≠ 0 := fun e => hy (by rw [e])
      simp [div, toEReal, h0, Rounding.exact, EReal.coe_div]

/-- A number divided by zero is an infinity with its sign. -/
theorem div_zero {x : FNum} (h : div .exact x (fin 0) ≠ nan) :
    div .exact x (fin 0) = if 0 < x.toEReal then pinf else ninf := by
  cases x with
  | nan => simp [div] at h
  | pinf => simp [div, toEReal]
  | ninf => simp [div, toEReal]
  | fin x =>
    by_cases h0 : x = 0
    · simp [div, h0] at h
    · simp [div, h0, infOf, toEReal]

theorem exp_val {x : FNum} (h : x ≠ nan) : (exp .exact x).toEReal = (EReal.exp x.toEReal : EReal) := by
  cases x with
  | nan => exact absurd rfl h
  | pinf => simp [exp, toEReal]
  | ninf => simp [exp, toEReal]
  | fin x => simp [exp, toEReal, Rounding.exact, Real.exp_nonneg]

theorem log_val {x : FNum} (h : x ≠ nan) (h0 : 0 ≤ x.toEReal) : (log .exact x).toEReal = ENNReal.log x.toEReal.toENNReal := by
  cases x with
  | nan => exact absurd rfl h
  | pinf => simp [log, toEReal]
  | ninf => simp [toEReal] at h0
  | fin x =>
    have hx : 0 ≤ x := by simpa [toEReal] using h0
    rcases hx.lt_or_eq with h1 | h1
    · simp only [log, not_lt.2 hx, h1.ne', if_false, toEReal, Rounding.exact]
      rw [ENNReal.log_pos_real (by simp [h1]) (by simp)]
      simp [hx]
    · subst h1
      simp [log, toEReal]

/-- The logarithm of a negative number is NaN, of no other number. -/
theorem log_nan (x : FNum) : log .exact x = nan ↔ x = nan ∨ x.toEReal < 0 := by
  cases x <;> simp only [log, toEReal, Rounding.exact] <;> (repeat' split) <;> simp_all

theorem sqrt_nan (x : FNum) : sqrt .exact x = nan ↔ x = nan ∨ x.toEReal < 0 := by
  cases x <;> simp only [sqrt, toEReal, Rounding.exact] <;> (repeat' split) <;> simp_all

/-- The square of a root is the number. -/
theorem sqrt_val {x : FNum} (h : sqrt .exact x ≠ nan) : (sqrt .exact x).toEReal * (sqrt .exact x).toEReal = x.toEReal ∧
    0 ≤ (sqrt .exact x).toEReal := by
  cases x with
  | nan => simp [sqrt] at h
  | pinf => simp [sqrt, toEReal]
  | ninf => simp [sqrt] at h
  | fin x =>
    by_cases h0 : x < 0
    · simp [sqrt, h0] at h
    · simp only [sqrt, h0, if_false, toEReal, Rounding.exact]
      refine ⟨?_, by exact_mod_cast Real.sqrt_nonneg x⟩
      rw [← EReal.coe_mul, Real.mul_self_sqrt (not_lt.1 h0)]

/-- A power of a non-negative number is that of the reals, except that a negative power of zero is infinite. -/
theorem pow_val {x y : ℝ} (hx : 0 ≤ x) : pow .exact (fin x) (fin y) = if x = 0 ∧ y < 0 then pinf else fin (x ^ y) := by
  rcases hx.lt_or_eq with h | h
  · simp [pow, powFin, h, h.ne', Rounding.exact]
  · subst h
    rcases lt_trichotomy y 0 with hy | hy | hy
    · simp [pow, powFin, hy, hy.ne, not_lt.2 hy.le]
    · simp [pow, powFin, hy]
    · simp [pow, powFin, hy.ne', hy, not_lt.2 hy.le, Real.zero_rpow hy.ne']

/-- An integral power of a negative number, and NaN for any other power. -/
theorem pow_neg {x : ℝ} (hx : x < 0) (y : ℝ) :
    (∀ n : ℤ, y = n → pow .exact (fin x) (fin y) = fin (x ^ n)) ∧
    ((∀ n : ℤ, y ≠ n) → pow .exact (fin x) (fin y) = nan) := by
  constructor
  · rintro n rfl
    by_cases hn : n = 0
    · simp [pow, powFin, hn, not_lt.2 hx.le]
    · have h : ∃ m : ℤ, (n : ℝ) = m := ⟨n, rfl⟩
      simp only [pow, powFin, not_lt.2 hx.le, if_false, Int.cast_eq_zero, hn, hx.ne, if_pos h, Rounding.exact]
      rw [Real.rpow_intCast]
  · intro h
    have h0 : y ≠ 0 := by simpa using h 0
    simp [pow, powFin, not_lt.2 hx.le, h0, hx.ne, not_exists.2 h]

end TD.FNum
