import Verif.Lemmas.Finite
import Mathlib.Analysis.Convex.SpecificFunctions.Basic
/-! Interval arithmetic of doubles with representable bounds. -/

namespace TD
open Spec

variable {ω : Platform}

/-- The number `k * 2 ^ e`. -/
noncomputable def dy (k : ℕ) (e : ℤ) : ℝ := k * 2 ^ e

theorem rep_dy {k : ℕ} {e : ℤ} (hk : k ≤ 2 ^ 53) (h1 : -1074 ≤ e) (h2 : e ≤ 970) : Rep (.binary64 ω) (dy k e) :=
  rep64_mul hk h1 h2

section
variable {x y : FP (.binary64 ω)} {a b c d lo hi : ℝ}

theorem iv_add (hx : Btw (.binary64 ω) a b x) (hy : Btw (.binary64 ω) c d y) (rl : Rep (.binary64 ω) lo) (rh : Rep (.binary64 ω) hi)
    (h1 : lo ≤ a + c) (h2 : b + d ≤ hi) : Btw (.binary64 ω) lo hi (FNum.add (.binary64 ω) x y) := by
  obtain ⟨u, rfl, -, hu1, hu2⟩ := hx
  obtain ⟨v, rfl, -, hv1, hv2⟩ := hy
  exact btw_rnd rl rh (by linarith) (by linarith)

theorem iv_mul (hx : Btw (.binary64 ω) a b x) (hy : Btw (.binary64 ω) c d y) (rl : Rep (.binary64 ω) lo) (rh : Rep (.binary64 ω) hi)
    (ha : 0 ≤ a) (hc : 0 ≤ c) (h1 : lo ≤ a * c) (h2 : b * d ≤ hi) :
    Btw (.binary64 ω) lo hi (FNum.mul (.binary64 ω) x y) := by
  obtain ⟨u, rfl, -, hu1, hu2⟩ := hx
  obtain ⟨v, rfl, -, hv1, hv2⟩ := hy
  exact btw_rnd rl rh (h1.trans (mul_le_mul hu1 hv1 hc (ha.trans hu1)))
    ((mul_le_mul hu2 hv2 (hc.trans hv1) ((ha.trans hu1).trans hu2)).trans h2)

theorem iv_div (hx : Btw (.binary64 ω) a b x) (hy : Btw (.binary64 ω) c d y) (rl : Rep (.binary64 ω) lo) (rh : Rep (.binary64 ω) hi)
    (ha : 0 ≤ a) (hc : 0 < c) (h1 : lo * d ≤ a) (h2 : b ≤ hi * c) :
    Btw (.binary64 ω) lo hi (FNum.div (.binary64 ω) x y) := by
  obtain ⟨u, rfl, -, hu1, hu2⟩ := hx
  obtain ⟨v, rfl, -, hv1, hv2⟩ := hy
  have hv : 0 < v := hc.trans_le hv1
  have hd : 0 < d := hv.trans_le hv2
  have e : FNum.div (.binary64 ω) (FNum.fin u) (FNum.fin v) = (Rounding.binary64 ω).rnd (u / v) := by
    simp only [FNum.div]; rw [if_neg hv.ne']
  show Btw _ _ _ (FNum.div (.binary64 ω) (FNum.fin u) (FNum.fin v))
  rw [e]
  refine btw_rnd rl rh ?_ ?_
  · rw [le_div_iff₀ hv]
    rcases le_or_gt 0 lo with h | h
    · exact (mul_le_mul_of_nonneg_left hv2 h).trans (h1.trans hu1)
    · exact (mul_nonpos_of_nonpos_of_nonneg h.le hv.le).trans (ha.trans hu1)
  · rw [div_le_iff₀ hv]
    have hh : 0 ≤ hi := by
      by_contra hn
      push Not at hn
      have := mul_neg_of_neg_of_pos hn hc
      linarith [ha.trans (hu1.trans hu2)]
    exact hu2.trans (h2.trans (mul_le_mul_of_nonneg_left hv1 hh))

theorem iv_inv (hy : Btw (.binary64 ω) c d y) (rl : Rep (.binary64 ω) lo) (rh : Rep (.binary64 ω) hi)
    (hc : 0 < c) (h1 : lo * d ≤ 1) (h2 : 1 ≤ hi * c) :
    Btw (.binary64 ω) lo hi (FNum.div (.binary64 ω) (.fin 1) y) :=
  iv_div (x := (FP.fin 1 : FP (.binary64 ω))) (a := 1) (b := 1) ⟨1, rfl, rep_one, le_rfl, le_rfl⟩ hy rl rh zero_le_one hc h1 h2

theorem iv_self (hx : Btw (.binary64 ω) a b x) (ha : 0 < a) : Btw (.binary64 ω) (dy 1 0) (dy 1 0) (FNum.div (.binary64 ω) x x) := by
  have e : dy 1 0 = 1 := by simp [dy]
  rw [e]
  obtain ⟨u, rfl, -, hu1, hu2⟩ := hx
  have hu : u ≠ 0 := (ha.trans_le hu1).ne'
  refine ⟨1, ?_, rep_one, le_rfl, le_rfl⟩
  show FNum.div (.binary64 ω) (FNum.fin u) (FNum.fin u) = _
  simp only [FNum.div]
  rw [if_neg hu, div_self hu]
  exact rep_one

/-- The exponent is close to `7/5`. -/
def NearSevenFifths (g : FP (.binary64 ω)) : Prop := ∃ y : ℝ, g = FP.fin y ∧ |5 * y - 7| ≤ 2 ^ (-49 : ℤ)

theorem lit_seven_fifths : NearSevenFifths (Arith.lit 14 10 : FP (.binary64 ω)) := by
  have h := btw_rnd (R := .binary64 ω) (x := ((14 : ℤ) : ℝ) / ((10 : ℕ) : ℝ))
    (rep_dy (k := 6305039478318694) (e := -52) (by norm_num) (by norm_num) (by norm_num))
    (rep_dy (k := 6305039478318695) (e := -52) (by norm_num) (by norm_num) (by norm_num))
    (by norm_num [dy]) (by norm_num [dy])
  obtain ⟨y, hy, -, h1, h2⟩ := h
  refine ⟨y, hy, ?_⟩
  norm_num [dy] at h1 h2 ⊢
  rw [abs_le]
  constructor <;> linarith

/-- `v ^ u` is close to 1 for small `u`. -/
theorem rpow_small {v u : ℝ} (h1 : (2 : ℝ) ^ (-1100 : ℤ) ≤ v) (h2 : v ≤ 2 ^ (1100 : ℤ)) (hu : |u| ≤ 2 ^ (-49 : ℤ)) :
    v ^ u ≤ 1 + 2 ^ (-38 : ℤ) := by
  have hv : 0 < v := lt_of_lt_of_le (by positivity) h1
  have hlog : |Real.log v| ≤ 1100 * Real.log 2 := by
    rw [abs_le]
    constructor
    · have := Real.log_le_log (by positivity) h1
      rw [Real.log_zpow] at this
      push_cast at this
      linarith
    · have := Real.log_le_log hv h2
      rw [Real.log_zpow] at this
      push_cast at this
      linarith
  have hle : Real.log v * u ≤ Real.log 2 * (2 ^ (-38 : ℤ)) := by
    calc Real.log v * u ≤ |Real.log v * u| := le_abs_self _
      _ = |Real.log v| * |u| := abs_mul _ _
      _ ≤ (1100 * Real.log 2) * 2 ^ (-49 : ℤ) := mul_le_mul hlog hu (abs_nonneg _) (by positivity)
      _ ≤ Real.log 2 * (2 ^ (-38 : ℤ)) := by
        have : 0 < Real.log 2 := Real.log_pos (by norm_num)
        norm_num
        linarith
  rw [Real.rpow_def_of_pos hv]
  calc Real.exp (Real.log v * u) ≤ Real.exp (Real.log 2 * 2 ^ (-38 : ℤ)) := Real.exp_le_exp.2 hle
    _ ≤ 1 + 2 ^ (-38 : ℤ) := by
      have hw0 : (0 : ℝ) ≤ 2 ^ (-38 : ℤ) := by positivity
      have hw1 : (2 : ℝ) ^ (-38 : ℤ) ≤ 1 := by norm_num
      generalize (2 : ℝ) ^ (-38 : ℤ) = w at hw0 hw1 ⊢
      rw [← Real.rpow_def_of_pos (by norm_num), ← one_add_one_eq_two]
      have := rpow_one_add_le_one_add_mul_self (s := 1) (p := w) (by norm_num) hw0 hw1
      rwa [mul_one] at this

theorem iv_pow {g : FP (.binary64 ω)} (hg : NearSevenFifths g) (hx : Btw (.binary64 ω) a b x) (rl : Rep (.binary64 ω) lo)
    (rh : Rep (.binary64 ω) hi) (ha : (2 : ℝ) ^ (-1100 : ℤ) ≤ a) (hb : b ≤ 2 ^ (1100 : ℤ))
    (h0' : 0 ≤ hi)
    (h1 : lo ^ 5 * (1 + 2 ^ (-38 : ℤ)) ≤ a ^ 7) (h2 : b ^ 7 * (1 + 2 ^ (-38 : ℤ)) ≤ hi ^ 5) :
    Btw (.binary64 ω) lo hi (FNum.pow (.binary64 ω) x g) := by
  obtain ⟨y, rfl, hy⟩ := hg
  obtain ⟨v, rfl, -, hv1, hv2⟩ := hx
  have hapos : 0 < a := lt_of_lt_of_le (by positivity) ha
  have hv : 0 < v := hapos.trans_le hv1
  have e : FNum.pow (.binary64 ω) (FNum.fin v) (FNum.fin y) = (Rounding.binary64 ω).rnd ((Rounding.binary64 ω).powv v y) := by
    simp only [FNum.pow, FNum.powFin]; rw [if_pos hv]
  show Btw _ _ _ (FNum.pow (.binary64 ω) (FNum.fin v) (FNum.fin y))
  rw [e]
  have hpos : 0 < v ^ y := Real.rpow_pos_of_pos hv y
  have h5 : (v ^ y) ^ 5 = v ^ 7 * v ^ (5 * y - 7) := by
    rw [← Real.rpow_natCast, ← Real.rpow_mul hv.le, ← Real.rpow_natCast v 7, ← Real.rpow_add hv]
    congr 1
    push_cast
    ring
  have h5' : (v ^ y) ^ 5 * v ^ (-(5 * y - 7)) = v ^ 7 := by
    rw [h5, mul_assoc, ← Real.rpow_add hv, add_neg_cancel, Real.rpow_zero, mul_one]
  have s1 := rpow_small (ha.trans hv1) (hv2.trans hb) hy
  have s2 := rpow_small (u := -(5 * y - 7)) (ha.trans hv1) (hv2.trans hb) (by rwa [abs_neg])
  refine btw_faithful (Rounding.pow_faithful _ _ _) rl rh ?_ ?_
  · refine le_of_pow_le_pow_left₀ (n := 5) (by norm_num) hpos.le ?_
    have hav : a ^ 7 ≤ v ^ 7 := pow_le_pow_left₀ hapos.le hv1 7
    have h3 : (v ^ y) ^ 5 * v ^ (-(5 * y - 7)) ≤ (v ^ y) ^ 5 * (1 + 2 ^ (-38 : ℤ)) :=
      mul_le_mul_of_nonneg_left s2 (by positivity)
    have hp : (0 : ℝ) < 1 + 2 ^ (-38 : ℤ) := by positivity
    exact le_of_mul_le_mul_right (h1.trans (hav.trans (h5'.symm.le.trans h3))) hp
  · refine le_of_pow_le_pow_left₀ (n := 5) (by norm_num) h0' ?_
    have hvb : v ^ 7 ≤ b ^ 7 := pow_le_pow_left₀ hv.le hv2 7
    rw [h5]
    exact (mul_le_mul hvb s1 (Real.rpow_nonneg hv.le _)
      (pow_nonneg (hv.le.trans hv2) 7)).trans h2

open Double in
theorem rnd_below {v : ℝ} (h0 : 0 ≤ v) (h : v ≤ 2 ^ (-1099 : ℤ)) : (Rounding.binary64 ω).rnd v = .fin 0 := by
  have hlog : Int.log 2 ((2 : ℝ) ^ (-1099 : ℤ)) = -1099 := by
    have := Int.log_zpow (R := ℝ) (b := 2) (by norm_num) (-1099)
    exact_mod_cast this
  have hlp : lastPlace ((2 : ℝ) ^ (-1099 : ℤ)) = -1074 := by unfold lastPlace; omega
  have hz : roundNonneg ((2 : ℝ) ^ (-1099 : ℤ)) = 0 := by
    unfold roundNonneg
    rw [hlp, ← zpow_sub₀ two_ne_zero]
    have hlt : (2 : ℝ) ^ ((-1099 : ℤ) - -1074) < 1 / 2 := by norm_num
    have hfl : ⌊(2 : ℝ) ^ ((-1099 : ℤ) - -1074)⌋ = 0 := by
      rw [Int.floor_eq_zero_iff]
      exact ⟨(two_zpow_pos _).le, hlt.trans (by norm_num)⟩
    have : nearest ((2 : ℝ) ^ ((-1099 : ℤ) - -1074)) = 0 := by
      unfold nearest
      rw [hfl, if_pos (by simpa using hlt)]
    rw [this]
    simp
  show Double.rnd v = _
  have h1 := roundNonneg_mono h0 h
  rw [hz] at h1
  have h2 : roundNonneg v = 0 := le_antisymm h1 (roundNonneg_nonneg h0)
  rw [rnd_nonneg h0, h2, if_neg (by norm_num)]

theorem iv_pow_tiny {g : FP (.binary64 ω)} (hg : NearSevenFifths g) (hx : Btw (.binary64 ω) a b x) (ha : 0 < a) (hb : b ≤ 2 ^ (-1000 : ℤ)) :
    Btw (.binary64 ω) (dy 0 0) (dy 0 0) (FNum.pow (.binary64 ω) x g) := by
  obtain ⟨y, rfl, hy⟩ := hg
  obtain ⟨v, rfl, -, hv1, hv2⟩ := hx
  have hv : 0 < v := ha.trans_le hv1
  have e0 : dy 0 0 = 0 := by simp [dy]
  rw [e0]
  have e : FNum.pow (.binary64 ω) (FNum.fin v) (FNum.fin y) = (Rounding.binary64 ω).rnd ((Rounding.binary64 ω).powv v y) := by
    simp only [FNum.pow, FNum.powFin]; rw [if_pos hv]
  refine ⟨0, ?_, rep_zero, le_rfl, le_rfl⟩
  show FNum.pow (.binary64 ω) (FNum.fin v) (FNum.fin y) = _
  rw [e]
  have hy1 : 11 / 10 ≤ y := by
    rw [abs_le] at hy
    have h3 : (2 : ℝ) ^ (-49 : ℤ) ≤ 1 / 2 := by norm_num
    have h4 := hy.1
    generalize (2 : ℝ) ^ (-49 : ℤ) = w at h3 h4
    linarith
  have hb' := abs_le.1 (ω.powErr_le v y)
  have hs : (2⁻¹ : ℝ) ^ 55 ≤ 1 := pow_le_one₀ (by norm_num) (by norm_num)
  refine rnd_below (mul_nonneg (Real.rpow_nonneg hv.le _) (by linarith [hb'.1])) ?_
  suffices hle : v ^ y ≤ 2 ^ (-1100 : ℤ) by
    calc v ^ y * (1 + ω.powErr v y) ≤ 2 ^ (-1100 : ℤ) * 2 :=
          mul_le_mul hle (by linarith [hb'.2]) (by linarith [hb'.1]) (by positivity)
      _ = 2 ^ (-1099 : ℤ) := by rw [← zpow_add_one₀ two_ne_zero]; norm_num
  have hv1' : v ≤ 1 := (hv2.trans hb).trans (zpow_le_one_of_nonpos₀ (by norm_num) (by norm_num))
  calc v ^ y ≤ v ^ ((11 : ℝ) / 10) := Real.rpow_le_rpow_of_exponent_ge hv hv1' hy1
    _ ≤ ((2 : ℝ) ^ (-1000 : ℤ)) ^ ((11 : ℝ) / 10) := Real.rpow_le_rpow hv.le (hv2.trans hb) (by norm_num)
    _ = 2 ^ (-1100 : ℤ) := by
      rw [← Real.rpow_intCast, ← Real.rpow_mul (by norm_num), ← Real.rpow_intCast]
      congr 1
      norm_num

end
end TD
