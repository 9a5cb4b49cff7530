import Verif.Model.Float
import Mathlib.Data.Int.Log
import Mathlib.Tactic.Linarith
/-!
# IEEE 754 binary64

The rounding of numpy's `float64`: to nearest, ties to even, gradual underflow, overflow to
infinity.
-/

namespace TD.Double

/-- Nearest integer, ties to even. -/
noncomputable def nearest (x : ℝ) : ℤ :=
  if x - ⌊x⌋ < 1 / 2 then ⌊x⌋
  else if 1 / 2 < x - ⌊x⌋ then ⌊x⌋ + 1
  else if Even ⌊x⌋ then ⌊x⌋ else ⌊x⌋ + 1

/-- Exponent of the last place of numbers of the size of `x > 0`: 53 binary digits, but not
below `2 ^ -1074`. -/
noncomputable def lastPlace (x : ℝ) : ℤ := max (Int.log 2 x - 52) (-1074)

/-- `x ≥ 0` rounded, with unbounded range. -/
noncomputable def roundNonneg (x : ℝ) : ℝ := nearest (x / 2 ^ lastPlace x) * 2 ^ lastPlace x

/-- Rounding of binary64: magnitudes that round to at least `2 ^ 1024` overflow. -/
noncomputable def rnd (x : ℝ) : FNum :=
  if x < 0 then (if 2 ^ 1024 ≤ roundNonneg (-x) then .ninf else .fin (-roundNonneg (-x)))
  else if 2 ^ 1024 ≤ roundNonneg x then .pinf else .fin (roundNonneg x)

theorem nearest_int (n : ℤ) : nearest (n : ℝ) = n := by
  unfold nearest
  simp

theorem floor_le_nearest (x : ℝ) : ⌊x⌋ ≤ nearest x := by
  unfold nearest
  split_ifs <;> omega

theorem nearest_le_floor (x : ℝ) : nearest x ≤ ⌊x⌋ + 1 := by
  unfold nearest
  split_ifs <;> omega

theorem nearest_mono {x y : ℝ} (h : x ≤ y) : nearest x ≤ nearest y := by
  rcases (Int.floor_le_floor h).lt_or_eq with hlt | heq
  · have := nearest_le_floor x
    have := floor_le_nearest y
    omega
  · unfold nearest
    rw [heq]
    have hx : x - ⌊y⌋ ≤ y - ⌊y⌋ := by linarith
    split_ifs <;> first | omega | (exfalso; linarith)

theorem two_zpow_pos (e : ℤ) : (0 : ℝ) < 2 ^ e := zpow_pos two_pos e

/-- Multiples of the last place are kept. -/
theorem roundNonneg_multiple {x : ℝ} {k : ℤ} (h : x = k * 2 ^ lastPlace x) : roundNonneg x = x := by
  have e : x / 2 ^ lastPlace x = (k : ℝ) := by
    rw [div_eq_iff (two_zpow_pos _).ne']; exact h
  unfold roundNonneg
  rw [e, nearest_int]
  exact h.symm

theorem pow_multiple {a e : ℤ} (h : e ≤ a) : ∃ k : ℤ, (2 : ℝ) ^ a = k * 2 ^ e := by
  refine ⟨2 ^ (a - e).toNat, ?_⟩
  push_cast
  rw [← zpow_natCast, Int.toNat_of_nonneg (by omega), ← zpow_add₀ (two_ne_zero)]
  congr 1
  omega

theorem roundNonneg_mono_same {x y : ℝ} (h : x ≤ y) (he : lastPlace x = lastPlace y) :
    roundNonneg x ≤ roundNonneg y := by
  unfold roundNonneg
  rw [he]
  apply mul_le_mul_of_nonneg_right _ (two_zpow_pos _).le
  exact_mod_cast nearest_mono (div_le_div_of_nonneg_right h (two_zpow_pos _).le)

theorem lastPlace_le {x y : ℝ} (hx : 0 < x) (h : x ≤ y) : lastPlace x ≤ lastPlace y := by
  have := Int.log_mono_right (b := 2) hx h
  unfold lastPlace
  omega

/-- Rounding stays below a multiple of the last place. -/
theorem roundNonneg_le {x b : ℝ} {k : ℤ} (h : x ≤ b) (hb : b = k * 2 ^ lastPlace x) : roundNonneg x ≤ b := by
  have e : b / 2 ^ lastPlace x = (k : ℝ) := by
    rw [div_eq_iff (two_zpow_pos _).ne']; exact hb
  have h1 := nearest_mono (div_le_div_of_nonneg_right h (two_zpow_pos (lastPlace x)).le)
  rw [e, nearest_int] at h1
  unfold roundNonneg
  rw [hb]
  apply mul_le_mul_of_nonneg_right _ (two_zpow_pos _).le
  exact_mod_cast h1

theorem le_roundNonneg {x b : ℝ} {k : ℤ} (h : b ≤ x) (hb : b = k * 2 ^ lastPlace x) : b ≤ roundNonneg x := by
  have e : b / 2 ^ lastPlace x = (k : ℝ) := by
    rw [div_eq_iff (two_zpow_pos _).ne']; exact hb
  have h1 := nearest_mono (div_le_div_of_nonneg_right h (two_zpow_pos (lastPlace x)).le)
  rw [e, nearest_int] at h1
  unfold roundNonneg
  rw [hb]
  apply mul_le_mul_of_nonneg_right _ (two_zpow_pos _).le
  exact_mod_cast h1

theorem roundNonneg_zero : roundNonneg 0 = 0 := roundNonneg_multiple (k := 0) (by simp)

theorem roundNonneg_nonneg {x : ℝ} (h : 0 ≤ x) : 0 ≤ roundNonneg x :=
  le_roundNonneg (k := 0) h (by simp)

theorem log_bounds {x : ℝ} (hx : 0 < x) : (2 : ℝ) ^ Int.log 2 x ≤ x ∧ x < 2 ^ (Int.log 2 x + 1) := by
  refine ⟨?_, ?_⟩
  · exact_mod_cast Int.zpow_log_le_self (b := 2) (by norm_num) hx
  · exact_mod_cast Int.lt_zpow_succ_log_self (b := 2) (by norm_num) x

theorem roundNonneg_mono {x y : ℝ} (hx : 0 ≤ x) (h : x ≤ y) : roundNonneg x ≤ roundNonneg y := by
  rcases hx.lt_or_eq with hx | rfl
  · rcases (lastPlace_le hx h).lt_or_eq with hlt | heq
    · have hy : 0 < y := hx.trans_le h
      -- the power of two at the bottom of `y`'s binade separates them
      have hly : lastPlace y = Int.log 2 y - 52 := by unfold lastPlace at hlt ⊢; omega
      have hlx : Int.log 2 x + 1 ≤ Int.log 2 y := by unfold lastPlace at hlt; omega
      have hxy : x ≤ 2 ^ Int.log 2 y :=
        (log_bounds hx).2.le.trans (zpow_le_zpow_right₀ (by norm_num) hlx)
      obtain ⟨k, hk⟩ := pow_multiple (a := Int.log 2 y) (e := lastPlace x) (by omega)
      obtain ⟨k', hk'⟩ := pow_multiple (a := Int.log 2 y) (e := lastPlace y) (by omega)
      exact (roundNonneg_le hxy hk).trans (le_roundNonneg (log_bounds hy).1 hk')
    · exact roundNonneg_mono_same h heq
  · rw [roundNonneg_zero]; exact roundNonneg_nonneg h

/-- The result of rounding is kept by rounding. -/
theorem roundNonneg_idem {x : ℝ} (hx : 0 ≤ x) : roundNonneg (roundNonneg x) = roundNonneg x := by
  rcases hx.lt_or_eq with hx | rfl
  · set y := roundNonneg x with hy
    have hy0 : 0 ≤ y := roundNonneg_nonneg hx.le
    rcases hy0.lt_or_eq with hy0 | hy0
    · -- `y = n * 2 ^ e`
      set e := lastPlace x with he
      have hye : y = nearest (x / 2 ^ e) * 2 ^ e := rfl
      have hle : y ≤ 2 ^ (Int.log 2 x + 1) ∨ e = -1074 ∧ y ≤ 2 ^ (e + 52) := by
        by_cases h : Int.log 2 x + 1 ≥ e
        · obtain ⟨k, hk⟩ := pow_multiple (a := Int.log 2 x + 1) (e := e) (by omega)
          exact .inl (roundNonneg_le (log_bounds hx).2.le hk)
        · right
          have h1 : e = -1074 := by unfold lastPlace at he; omega
          refine ⟨h1, ?_⟩
          obtain ⟨k, hk⟩ := pow_multiple (a := e + 52) (e := e) (by omega)
          refine roundNonneg_le ((log_bounds hx).2.le.trans ?_) hk
          exact zpow_le_zpow_right₀ (by norm_num) (by omega)
      have hee : e + 53 ≥ Int.log 2 x + 1 := by unfold lastPlace at he; omega
      have hle2 : y ≤ 2 ^ (e + 53) := by
        rcases hle with h | ⟨-, h⟩
        · exact h.trans (zpow_le_zpow_right₀ (by norm_num) hee)
        · exact h.trans (zpow_le_zpow_right₀ (by norm_num) (by omega))
      rcases hle2.lt_or_eq with hlt | heq
      · -- the last place of `y` is not above `e`
        have hlog : Int.log 2 y < e + 53 := by
          have h1 := (log_bounds hy0).1
          exact (zpow_lt_zpow_iff_right₀ (by norm_num : (1 : ℝ) < 2)).1 (h1.trans_lt hlt)
        have hl : lastPlace y ≤ e := by
          have : -1074 ≤ e := by rw [he]; unfold lastPlace; omega
          unfold lastPlace; omega
        obtain ⟨k, hk⟩ := pow_multiple hl
        refine roundNonneg_multiple (k := nearest (x / 2 ^ e) * k) ?_
        push_cast
        rw [mul_assoc, ← hk]
        exact hye
      · have hlog : Int.log 2 y = e + 53 := by
          rw [heq]
          have := Int.log_zpow (R := ℝ) (b := 2) (by norm_num) (e + 53)
          exact_mod_cast this
        have hl : lastPlace y ≤ e + 53 := by
          have : -1074 ≤ e := by rw [he]; unfold lastPlace; omega
          unfold lastPlace; omega
        obtain ⟨k, hk⟩ := pow_multiple hl
        exact roundNonneg_multiple (k := k) (by rw [← hk]; exact heq)
    · rw [← hy0]; exact roundNonneg_zero
  · rw [roundNonneg_zero, roundNonneg_zero]

theorem nearest_close {x : ℝ} {k : ℤ} (h : |x - k| < 1 / 2) : nearest x = k := by
  rw [abs_lt] at h
  rcases lt_or_ge x k with hx | hx
  · have hf : ⌊x⌋ = k - 1 := by
      rw [Int.floor_eq_iff]; push_cast; constructor <;> linarith [h.1]
    unfold nearest
    rw [hf]
    push_cast
    rw [if_neg (by linarith [h.1]), if_pos (by linarith [h.1])]
    omega
  · have hf : ⌊x⌋ = k := by
      rw [Int.floor_eq_iff]; constructor <;> linarith [h.2]
    unfold nearest
    rw [hf, if_pos (by linarith [h.2])]

/-- Values within an eighth of a unit in the last place of a number of the format round to it. -/
theorem roundNonneg_close {a y : ℝ} (ha : roundNonneg a = a) (h0 : 0 < a) (h : |y - a| ≤ a * 2⁻¹ ^ 55) :
    roundNonneg y = a := by
  obtain ⟨hl1, hl2⟩ := log_bounds h0
  set L := Int.log 2 a with hL
  have hlp : lastPlace a = max (L - 52) (-1074) := rfl
  set e := lastPlace a with he
  have hk : a = nearest (a / 2 ^ e) * 2 ^ e := ha.symm
  set k := nearest (a / 2 ^ e) with hkd
  have pe := two_zpow_pos e
  have pL := two_zpow_pos L
  rw [abs_le] at h
  have ha2 : a * 2⁻¹ ^ 55 < 2 ^ (L - 54) := by
    have : (2 : ℝ) ^ (L - 54) = 2 ^ (L + 1) * 2⁻¹ ^ 55 := by
      rw [show L - 54 = (L + 1) + (-55) by ring, zpow_add₀ two_ne_zero]
      congr 1
      norm_num
    rw [this]
    exact mul_lt_mul_of_pos_right hl2 (by positivity)
  have q1 : (2 : ℝ) ^ (L - 54) = 2 ^ (L - 52) / 4 := by
    rw [show L - 52 = (L - 54) + 2 by ring, zpow_add₀ two_ne_zero]
    norm_num
  have q2 : (2 : ℝ) ^ (L - 52) ≤ 2 ^ e := zpow_le_zpow_right₀ (by norm_num) (by omega)
  have hy0 : 0 < y := by
    have h1 : a * 2⁻¹ ^ 55 ≤ a / 2 := by
      have : (2⁻¹ : ℝ) ^ 55 ≤ 1 / 2 := by norm_num
      nlinarith
    linarith [h.1]
  have same : lastPlace y = e → roundNonneg y = a := by
    intro hs
    unfold roundNonneg
    rw [hs, nearest_close (k := k)]
    · exact hk.symm
    · have : y / 2 ^ e - k = (y - a) / 2 ^ e := by
        rw [sub_div]
        congr 1
        rw [eq_div_iff pe.ne']
        exact hk.symm
      rw [this, abs_div, abs_of_pos pe, div_lt_iff₀ pe, abs_lt]
      constructor <;> linarith [h.1, h.2]
  obtain ⟨hy1, hy2⟩ := log_bounds hy0
  have hyl : lastPlace y = max (Int.log 2 y - 52) (-1074) := rfl
  rcases lt_trichotomy (Int.log 2 y) L with hlt | heq | hgt
  · -- below the binade of `a`, which then is a power of two
    by_cases hs : lastPlace y = e
    · exact same hs
    have heL : e = L - 52 := by omega
    have hyL : y < 2 ^ L := hy2.trans_le (zpow_le_zpow_right₀ (by norm_num) (by omega))
    have hkL : k = 2 ^ 52 := by
      have e1 : (2 : ℝ) ^ L = 2 ^ 52 * 2 ^ e := by
        rw [heL, ← zpow_natCast, ← zpow_add₀ two_ne_zero]; congr 1; push_cast; ring
      have h1 : (2 : ℝ) ^ 52 ≤ k := by
        have := hl1
        rw [e1, hk] at this
        exact le_of_mul_le_mul_right this pe
      have h2 : (k : ℝ) < 2 ^ 52 + 1 := by
        have h3 : (k : ℝ) * 2 ^ e < (2 ^ 52 + 1) * 2 ^ e := by
          rw [← hk, add_mul, ← e1]
          rw [heL]
          linarith [h.1]
        exact lt_of_mul_lt_mul_right h3 pe.le
      have h1' : (2 : ℤ) ^ 52 ≤ k := by exact_mod_cast h1
      have h2' : k < 2 ^ 52 + 1 := by exact_mod_cast h2
      omega
    have haL : a = 2 ^ L := by
      have e1 : (2 : ℝ) ^ L = ((2 ^ 52 : ℤ) : ℝ) * 2 ^ (L - 52) := by
        rw [show ((2 ^ 52 : ℤ) : ℝ) = (2 : ℝ) ^ (52 : ℤ) by norm_num, ← zpow_add₀ two_ne_zero]; congr 1; ring
      rw [hk, hkL, heL]
      exact e1.symm
    have hlog : Int.log 2 y = L - 1 := by
      have h1 : (2 : ℝ) ^ (L - 1) ≤ y := by
        have : (2 : ℝ) ^ (L - 1) = a / 2 := by
          rw [haL, zpow_sub₀ two_ne_zero]; norm_num
        rw [this]
        have h1 : a * 2⁻¹ ^ 55 ≤ a / 2 := by
          have : (2⁻¹ : ℝ) ^ 55 ≤ 1 / 2 := by norm_num
          nlinarith
        linarith [h.1]
      have := (zpow_lt_zpow_iff_right₀ (by norm_num : (1 : ℝ) < 2)).1 (h1.trans_lt hy2)
      omega
    have hlpy : lastPlace y = L - 53 := by omega
    have pw := two_zpow_pos (L - 53)
    have e2 : (2 : ℝ) ^ L = (2 ^ 53 : ℤ) * 2 ^ (L - 53) := by
      rw [show ((2 ^ 53 : ℤ) : ℝ) = (2 : ℝ) ^ (53 : ℤ) by norm_num, ← zpow_add₀ two_ne_zero]; congr 1; ring
    unfold roundNonneg
    rw [hlpy, nearest_close (k := 2 ^ 53)]
    · rw [haL]; exact e2.symm
    · have e3 : y / 2 ^ (L - 53) - (2 ^ 53 : ℤ) = (y - a) / 2 ^ (L - 53) := by
        rw [sub_div, haL, e2, mul_div_assoc, div_self pw.ne', mul_one]
      rw [e3, abs_div, abs_of_pos pw, div_lt_iff₀ pw, abs_lt]
      have q3 : (2 : ℝ) ^ (L - 55) = 2 ^ (L - 53) / 4 := by
        rw [show L - 53 = (L - 55) + 2 by ring, zpow_add₀ two_ne_zero]
        norm_num
      have q4 : a * 2⁻¹ ^ 55 = 2 ^ (L - 55) := by
        rw [haL, zpow_sub₀ two_ne_zero, div_eq_mul_inv]
        congr 1
        norm_num
      constructor <;> linarith [h.1, h.2]
  · exact same (by rw [hyl, heq, hlp])
  · exfalso
    have hyL : (2 : ℝ) ^ (L + 1) ≤ y := le_trans (zpow_le_zpow_right₀ (by norm_num) (by omega)) hy1
    have p1 : (2 : ℝ) ^ (L + 1) = 2 * 2 ^ L := by rw [zpow_add₀ two_ne_zero]; norm_num; ring
    by_cases hle : e ≤ L + 1
    · obtain ⟨m, hm⟩ := pow_multiple hle
      have h1 : (k : ℝ) < m := by
        have := hl2
        rw [hk, hm] at this
        exact lt_of_mul_lt_mul_right this pe.le
      have h2 : (k : ℝ) + 1 ≤ m := by exact_mod_cast (by exact_mod_cast h1 : k < m)
      have h3 : a + 2 ^ e ≤ 2 ^ (L + 1) := by
        rw [hm, hk]
        have := mul_le_mul_of_nonneg_right h2 pe.le
        linarith
      linarith [h.2]
    · -- `a` would be below half of the smallest number
      have h1 : (k : ℝ) * 2 ^ e < 1 * 2 ^ e := by
        rw [← hk, one_mul]
        exact hl2.trans_le (zpow_le_zpow_right₀ (by norm_num) (by omega))
      have h2 : (k : ℝ) < 1 := lt_of_mul_lt_mul_right h1 pe.le
      have h3 : k ≤ 0 := by
        have : k < 1 := by exact_mod_cast h2
        omega
      have h4 : (k : ℝ) ≤ 0 := by exact_mod_cast h3
      have : a ≤ 0 := by rw [hk]; exact mul_nonpos_of_nonpos_of_nonneg h4 pe.le
      linarith

end TD.Double

namespace TD
open Double

/-- Integers up to `2 ^ 53` are represented exactly. -/
theorem Double.roundNonneg_nat {n : Nat} (h : n ≤ 2 ^ 53) : roundNonneg n = n := by
  rcases Nat.eq_zero_or_pos n with rfl | hpos
  · simpa using roundNonneg_zero
  have hn : (0 : ℝ) < n := by exact_mod_cast hpos
  rcases h.lt_or_eq with hlt | rfl
  · have hlog : Int.log 2 (n : ℝ) < 53 := by
      have h1 := (log_bounds hn).1
      have h2 : (n : ℝ) < 2 ^ (53 : ℤ) := by exact_mod_cast hlt
      exact (zpow_lt_zpow_iff_right₀ (by norm_num : (1 : ℝ) < 2)).1 (h1.trans_lt h2)
    obtain ⟨k, hk⟩ := pow_multiple (a := 0) (e := lastPlace (n : ℝ)) (by unfold lastPlace; omega)
    refine roundNonneg_multiple (k := n * k) ?_
    push_cast
    rw [mul_assoc, ← hk]
    simp
  · have e : ((2 ^ 53 : Nat) : ℝ) = 2 ^ (53 : ℤ) := by norm_num
    rw [e]
    have hlog : Int.log 2 ((2 : ℝ) ^ (53 : ℤ)) = 53 := by
      have := Int.log_zpow (R := ℝ) (b := 2) (by norm_num) 53
      exact_mod_cast this
    obtain ⟨k, hk⟩ := pow_multiple (a := 53) (e := lastPlace ((2 : ℝ) ^ (53 : ℤ)))
      (by unfold lastPlace; omega)
    exact roundNonneg_multiple (k := k) hk

theorem Double.rnd_nonneg {x : ℝ} (h : 0 ≤ x) :
    rnd x = if 2 ^ 1024 ≤ roundNonneg x then .pinf else .fin (roundNonneg x) := by
  unfold rnd
  rw [if_neg (not_lt.2 h)]

theorem Double.rnd_odd (x : ℝ) : rnd (-x) = (rnd x).neg := by
  rcases lt_trichotomy x 0 with h | rfl | h
  · unfold rnd
    rw [if_neg (by linarith), if_pos h]
    split_ifs <;> simp [FNum.neg]
  · rw [neg_zero, rnd_nonneg le_rfl, roundNonneg_zero, if_neg (by norm_num)]
    simp [FNum.neg]
  · unfold rnd
    rw [if_pos (show -x < 0 by linarith), if_neg (show ¬ x < 0 by linarith), neg_neg]
    split_ifs <;> simp [FNum.neg]

theorem Double.rnd_mono_nonneg {x y : ℝ} (hx : 0 ≤ x) (h : x ≤ y) : (rnd x).toEReal ≤ (rnd y).toEReal := by
  have hm := roundNonneg_mono hx h
  rw [rnd_nonneg hx, rnd_nonneg (hx.trans h)]
  split_ifs with h1 h2 h2
  · exact le_rfl
  · exact absurd (h1.trans hm) h2
  · exact le_top
  · simpa [FNum.toEReal] using hm

theorem Double.zero_le_rnd {x : ℝ} (hx : 0 ≤ x) : 0 ≤ (rnd x).toEReal := by
  have := rnd_mono_nonneg le_rfl hx
  rw [rnd_nonneg le_rfl, roundNonneg_zero, if_neg (by norm_num)] at this
  simpa [FNum.toEReal] using this

theorem FNum.toEReal_neg (x : FNum) : x.neg.toEReal = -x.toEReal := by
  cases x <;> simp [FNum.neg, FNum.toEReal]

/-- Numbers of the format survive a small relative error. -/
theorem Double.rnd_close {a δ : ℝ} (ha : rnd a = .fin a) (hδ : |δ| ≤ 2⁻¹ ^ 55) : rnd (a * (1 + δ)) = .fin a := by
  have key : ∀ a, 0 < a → rnd a = .fin a → rnd (a * (1 + δ)) = .fin a := by
    intro a h0 ha
    rw [rnd_nonneg h0.le] at ha
    split_ifs at ha with h1
    injection ha with ha
    have hb : |a * (1 + δ) - a| ≤ a * 2⁻¹ ^ 55 := by
      rw [show a * (1 + δ) - a = a * δ by ring, abs_mul, abs_of_pos h0]
      exact mul_le_mul_of_nonneg_left hδ h0.le
    have hd : 0 ≤ 1 + δ := by
      have h2 : (2⁻¹ : ℝ) ^ 55 ≤ 1 := by norm_num
      linarith [(abs_le.1 (hδ.trans h2)).1]
    rw [rnd_nonneg (mul_nonneg h0.le hd), roundNonneg_close ha h0 hb, if_neg (by rwa [ha] at h1)]
  rcases lt_trichotomy a 0 with h | rfl | h
  · have h1 : rnd (-a) = .fin (-a) := by rw [rnd_odd, ha]; rfl
    have h2 := key (-a) (by linarith) h1
    rw [neg_mul, rnd_odd] at h2
    cases hy : rnd (a * (1 + δ)) with
    | fin z =>
      rw [hy] at h2
      simp only [FNum.neg, FNum.fin.injEq, neg_inj] at h2
      rw [h2]
    | _ => rw [hy] at h2; cases h2
  · rw [zero_mul]; exact ha
  · exact key a h ha

theorem Double.rnd_mono {x y : ℝ} (h : x ≤ y) : (rnd x).toEReal ≤ (rnd y).toEReal := by
  rcases le_or_gt 0 x with hx | hx
  · exact rnd_mono_nonneg hx h
  · have ex : (Double.rnd x).toEReal = -(Double.rnd (-x)).toEReal := by
      rw [rnd_odd, FNum.toEReal_neg, neg_neg]
    rcases le_or_gt 0 y with hy | hy
    · have h1 := zero_le_rnd hy
      have h2 := zero_le_rnd (x := -x) (by linarith)
      rw [ex]
      exact le_trans (by rw [EReal.neg_le]; simpa using h2) h1
    · have ey : (Double.rnd y).toEReal = -(Double.rnd (-y)).toEReal := by
        rw [rnd_odd, FNum.toEReal_neg, neg_neg]
      rw [ex, ey, EReal.neg_le_neg_iff]
      exact rnd_mono_nonneg (by linarith) (by linarith)

/-- Rounding a value with a relative error of at most `2 ^ -55` is faithful. -/
theorem Double.faithful (v : ℝ) {δ : ℝ} (hδ : |δ| ≤ 2⁻¹ ^ 55) : FaithfulTo rnd v (v * (1 + δ)) := by
  have hd : 0 ≤ 1 + δ := by
    have h2 : (2⁻¹ : ℝ) ^ 55 ≤ 1 := by norm_num
    linarith [(abs_le.1 (hδ.trans h2)).1]
  intro a ha
  have e : (a : EReal) = (rnd (a * (1 + δ))).toEReal := by rw [rnd_close ha hδ]; rfl
  rw [e]
  exact ⟨fun h => rnd_mono (mul_le_mul_of_nonneg_right h hd), fun h => rnd_mono (mul_le_mul_of_nonneg_right h hd)⟩

/-- binary64, with any order of summation and any errors of `log`, `exp` and `pow` a platform
may have -/
noncomputable def Rounding.binary64 (ω : Platform) : Rounding where
  order := ω
  rnd := Double.rnd
  notNan := by
    intro x h
    unfold Double.rnd at h
    split_ifs at h <;> cases h
  mono _ _ := rnd_mono
  idem := by
    have key : ∀ x y, 0 ≤ x → Double.rnd x = .fin y → 0 ≤ y ∧ Double.rnd y = .fin y := by
      intro x y hx h
      rw [rnd_nonneg hx] at h
      split_ifs at h with h1
      injection h with h
      subst h
      have h0 := roundNonneg_nonneg hx
      refine ⟨h0, ?_⟩
      rw [rnd_nonneg h0, roundNonneg_idem hx, if_neg h1]
    intro x y h
    rcases le_or_gt 0 x with hx | hx
    · exact (key x y hx h).2
    · have h' : Double.rnd (-x) = .fin (-y) := by rw [rnd_odd, h]; rfl
      have := (key (-x) (-y) (by linarith) h').2
      rw [rnd_odd] at this
      cases hy : Double.rnd y with
      | fin z =>
        rw [hy] at this
        simp only [FNum.neg, FNum.fin.injEq, neg_inj] at this
        rw [this]
      | _ => rw [hy] at this; cases this
  odd := rnd_odd
  zero := by
    show Double.rnd 0 = _
    rw [rnd_nonneg le_rfl, roundNonneg_zero, if_neg (by norm_num)]
  one := by
    show Double.rnd 1 = _
    have := roundNonneg_nat (n := 1) (by norm_num)
    rw [Nat.cast_one] at this
    rw [rnd_nonneg zero_le_one, this, if_neg (not_le.2 (one_lt_pow₀ one_lt_two (by norm_num)))]
  logv x := Real.log x * (1 + ω.logErr x)
  log_faithful x _ := faithful _ (ω.logErr_le x)
  expv x := Real.exp x * (1 + ω.expErr x)
  exp_faithful x := faithful _ (ω.expErr_le x)
  powv x y := x ^ y * (1 + ω.powErr x y)
  pow_faithful x y := faithful _ (ω.powErr_le x y)

end TD
