import Verif.Model.Double
import Verif.Spec.Double
/-!
# The rounding of binary64 is to nearest, ties to even (C31)
-/

namespace TD
open Spec Double

theorem nearest_abs (x : ℝ) (k : ℤ) : |x - nearest x| ≤ |x - k| := by
  have h1 := Int.floor_le x
  have h2 := Int.lt_floor_add_one x
  have hk : k ≤ ⌊x⌋ ∨ ⌊x⌋ + 1 ≤ k := by omega
  have hn : |x - nearest x| ≤ x - ⌊x⌋ ∧ |x - nearest x| ≤ ⌊x⌋ + 1 - x := by
    unfold nearest
    split_ifs
    · rw [abs_of_nonneg (by linarith)]; constructor <;> linarith
    · push_cast
      rw [abs_of_nonpos (by linarith)]; constructor <;> linarith
    · rw [abs_of_nonneg (by linarith)]; constructor <;> linarith
    · push_cast
      rw [abs_of_nonpos (by linarith)]; constructor <;> linarith
  rcases hk with hk | hk
  · have hk' : (k : ℝ) ≤ ⌊x⌋ := by exact_mod_cast hk
    rw [abs_of_nonneg (a := x - k) (by linarith)]
    linarith [hn.1]
  · have hk' : (⌊x⌋ : ℝ) + 1 ≤ k := by exact_mod_cast hk
    rw [abs_of_nonpos (a := x - k) (by linarith)]
    linarith [hn.2]

theorem nearest_tie {x : ℝ} {k : ℤ} (hk : k ≠ nearest x) (h : |x - k| = |x - nearest x|) : Even (nearest x) := by
  have h1 := Int.floor_le x
  have h2 := Int.lt_floor_add_one x
  have hk2 : k ≤ ⌊x⌋ ∨ ⌊x⌋ + 1 ≤ k := by omega
  unfold nearest at h hk ⊢
  split_ifs at h hk ⊢ with g1 g2 g3
  · exfalso
    rw [abs_of_nonneg (a := x - ⌊x⌋) (by linarith)] at h
    rcases hk2 with hk2 | hk2
    · have : (k : ℝ) ≤ ⌊x⌋ := by exact_mod_cast hk2
      rw [abs_of_nonneg (by linarith)] at h
      exact hk (by exact_mod_cast (by linarith : (k : ℝ) = ⌊x⌋))
    · have : (⌊x⌋ : ℝ) + 1 ≤ k := by exact_mod_cast hk2
      rw [abs_of_nonpos (by linarith)] at h
      linarith
  · exfalso
    push_cast at h
    rw [abs_of_nonpos (a := x - (⌊x⌋ + 1)) (by linarith)] at h
    rcases hk2 with hk2 | hk2
    · have : (k : ℝ) ≤ ⌊x⌋ := by exact_mod_cast hk2
      rw [abs_of_nonneg (by linarith)] at h
      linarith
    · have : (⌊x⌋ : ℝ) + 1 ≤ k := by exact_mod_cast hk2
      rw [abs_of_nonpos (by linarith)] at h
      have : (k : ℝ) = ((⌊x⌋ + 1 : ℤ) : ℝ) := by push_cast; linarith
      exact hk (by exact_mod_cast this)
  · exact g3
  · rw [Int.not_even_iff_odd] at g3
    exact g3.add_one

/-- A double is a multiple of the last place of `x`, or smaller than the power of two at or
below `x`. -/
theorem double_multiple {x z : ℝ} (hx : 0 < x) (hz : IsDouble z) :
    (∃ k : ℤ, z = k * 2 ^ lastPlace x) ∨ |z| < 2 ^ Int.log 2 x ∧ lastPlace x = Int.log 2 x - 52 := by
  obtain ⟨m, e, rfl, hm, h1, h2⟩ := hz
  by_cases h : lastPlace x ≤ e
  · left
    obtain ⟨k, hk⟩ := pow_multiple h
    exact ⟨m * k, by rw [hk]; push_cast; ring⟩
  · right
    have hl : lastPlace x = Int.log 2 x - 52 := by
      unfold lastPlace at h ⊢; omega
    refine ⟨?_, hl⟩
    rw [abs_mul, abs_of_pos (two_zpow_pos e)]
    have hm' : |(m : ℝ)| < 2 ^ (53 : ℤ) := by
      have : ((|m| : ℤ) : ℝ) < ((2 ^ 53 : ℤ) : ℝ) := by exact_mod_cast hm
      rw [Int.cast_abs] at this
      exact_mod_cast this
    calc |(m : ℝ)| * 2 ^ e < 2 ^ (53 : ℤ) * 2 ^ e := mul_lt_mul_of_pos_right hm' (two_zpow_pos e)
      _ = 2 ^ (53 + e) := (zpow_add₀ two_ne_zero _ _).symm
      _ ≤ 2 ^ Int.log 2 x := zpow_le_zpow_right₀ (by norm_num) (by omega)

theorem round_abs {x : ℝ} (hx : 0 < x) {z : ℝ} {k : ℤ} (hz : z = k * 2 ^ lastPlace x) :
    |x - roundNonneg x| ≤ |x - z| := by
  have hp := two_zpow_pos (lastPlace x)
  have e : ∀ n : ℤ, |x - n * 2 ^ lastPlace x| = |x / 2 ^ lastPlace x - n| * 2 ^ lastPlace x := by
    intro n
    rw [← abs_of_pos hp, ← abs_mul, abs_of_pos hp, sub_mul, div_mul_cancel₀ _ hp.ne']
  unfold roundNonneg
  rw [hz, e, e]
  exact mul_le_mul_of_nonneg_right (nearest_abs _ _) hp.le

theorem round_size {x : ℝ} (hx : 0 < x) : 0 ≤ nearest (x / 2 ^ lastPlace x) ∧
    nearest (x / 2 ^ lastPlace x) ≤ 2 ^ 53 := by
  have hp := two_zpow_pos (lastPlace x)
  constructor
  · have := nearest_mono (x := ((0 : ℤ) : ℝ)) (y := x / 2 ^ lastPlace x) (by push_cast; positivity)
    rwa [nearest_int] at this
  · have := nearest_mono (x := x / 2 ^ lastPlace x) (y := ((2 ^ 53 : ℤ) : ℝ)) (by
      rw [div_le_iff₀ hp]
      have h1 := (log_bounds hx).2
      have h2 : (2 : ℝ) ^ (Int.log 2 x + 1) ≤ 2 ^ (53 + lastPlace x) :=
        zpow_le_zpow_right₀ (by norm_num) (by unfold lastPlace; omega)
      rw [zpow_add₀ two_ne_zero 53] at h2
      have h3 : ((2 ^ 53 : ℤ) : ℝ) = 2 ^ (53 : ℤ) := by norm_num
      rw [h3]
      linarith)
    rwa [nearest_int] at this

theorem place_le {x : ℝ} (hx : 0 < x) {E : ℤ} (hE : -1021 ≤ E) (h : roundNonneg x < 2 ^ E) :
    lastPlace x ≤ E - 53 := by
  by_contra hc
  have hl : lastPlace x = Int.log 2 x - 52 := by unfold lastPlace at hc ⊢; omega
  obtain ⟨k, hk⟩ := pow_multiple (a := Int.log 2 x) (e := lastPlace x) (by omega)
  have h1 := le_roundNonneg (log_bounds hx).1 hk
  have h2 : (2 : ℝ) ^ E ≤ 2 ^ Int.log 2 x := zpow_le_zpow_right₀ (by norm_num) (by omega)
  linarith

theorem cast53 : ((2 ^ 53 : ℤ) : ℝ) = 2 ^ (53 : ℤ) := by norm_num

theorem big_pow : (2 : ℝ) ^ 1024 = 2 ^ (1024 : ℤ) := (zpow_natCast (2 : ℝ) 1024).symm

/-- Positive numbers. -/
theorem round_nearest {x : ℝ} (hx : 0 < x) (hr : roundNonneg x < 2 ^ (1024 : ℤ)) : Nearest x (roundNonneg x) := by
  have hp := two_zpow_pos (lastPlace x)
  obtain ⟨hn0, hn1⟩ := round_size hx
  have hpl : lastPlace x ≤ 971 := place_le hx (by norm_num) hr
  have hlo : -1074 ≤ lastPlace x := le_max_right _ _
  set n := nearest (x / 2 ^ lastPlace x) with hn
  have hy : roundNonneg x = n * 2 ^ lastPlace x := rfl
  -- the result with 53 digits
  have hrep : ∃ m e : ℤ, roundNonneg x = m * 2 ^ e ∧ |m| < 2 ^ 53 ∧ -1074 ≤ e ∧ e ≤ 971 ∧ (Even n → Even m) := by
    rcases hn1.lt_or_eq with h | h
    · exact ⟨n, _, hy, by rw [abs_of_nonneg hn0]; exact h, hlo, hpl, id⟩
    · refine ⟨2 ^ 52, lastPlace x + 1, ?_, by norm_num, by omega, ?_, fun _ => by decide⟩
      · rw [hy, h, zpow_add₀ two_ne_zero]; push_cast; ring
      · by_contra hc
        have e1 : lastPlace x = 971 := by omega
        rw [hy, h, e1, cast53, ← zpow_add₀ two_ne_zero] at hr
        exact lt_irrefl _ hr
  obtain ⟨m, e, h1, h2, h3, h4, h5⟩ := hrep
  have hfar : ∀ z, |z| < 2 ^ Int.log 2 x → lastPlace x = Int.log 2 x - 52 → |x - roundNonneg x| < |x - z| := by
    intro z hz hl
    obtain ⟨k, hk⟩ := pow_multiple (a := Int.log 2 x) (e := lastPlace x) (by omega)
    have g1 := round_abs hx hk
    have g2 := (log_bounds hx).1
    have g3 := (abs_lt.1 hz).2
    rw [abs_of_nonneg (a := x - 2 ^ Int.log 2 x) (by linarith)] at g1
    rw [abs_of_nonneg (a := x - z) (by linarith)]
    linarith
  refine ⟨⟨m, e, h1, h2, h3, h4⟩, fun z hz => ?_, fun z hz hne ht => ?_⟩
  · rcases double_multiple hx hz with ⟨k, hk⟩ | ⟨hz, hl⟩
    · exact round_abs hx hk
    · exact (hfar z hz hl).le
  · rcases double_multiple hx hz with ⟨k, hk⟩ | ⟨hz, hl⟩
    · refine ⟨m, e, h1, h2, h3, h4, h5 ?_⟩
      have e : ∀ j : ℤ, |x - j * 2 ^ lastPlace x| = |x / 2 ^ lastPlace x - j| * 2 ^ lastPlace x := by
        intro j
        rw [← abs_of_pos hp, ← abs_mul, abs_of_pos hp, sub_mul, div_mul_cancel₀ _ hp.ne']
      rw [hk, hy, e, e] at ht
      refine nearest_tie (k := k) ?_ (mul_right_cancel₀ hp.ne' ht)
      rintro rfl
      exact hne (by rw [hk, hy])
    · exact absurd ht (hfar z hz hl).ne'

theorem round_overflow {x : ℝ} (hx : 0 ≤ x) {E : ℤ} (hE : -1020 ≤ E) :
    2 ^ E ≤ roundNonneg x ↔ (2 : ℝ) ^ E - 2 ^ (E - 54) ≤ x := by
  have hpE := two_zpow_pos E
  have hhalf : (2 : ℝ) ^ E = 2 * 2 ^ (E - 1) := by
    rw [show E = 1 + (E - 1) by omega, zpow_add₀ two_ne_zero]; norm_num
  have hsm : (2 : ℝ) ^ (E - 54) < 2 ^ (E - 1) := zpow_lt_zpow_right₀ (by norm_num) (by omega)
  have h0 := two_zpow_pos (E - 1)
  have h00 := two_zpow_pos (E - 54)
  rcases lt_or_ge x (2 ^ E) with h1 | h1
  · rcases lt_or_ge x (2 ^ (E - 1)) with h2 | h2
    · refine ⟨fun h => ?_, fun h => by linarith⟩
      exfalso
      rcases hx.lt_or_eq with hx | rfl
      · obtain ⟨k, hk⟩ := pow_multiple (a := E - 1) (e := lastPlace x) (by
          have : Int.log 2 x < E - 1 := by
            by_contra hc
            have : (2 : ℝ) ^ (E - 1) ≤ 2 ^ Int.log 2 x := zpow_le_zpow_right₀ (by norm_num) (by omega)
            linarith [(log_bounds hx).1]
          unfold lastPlace; omega)
        have := roundNonneg_le h2.le hk
        linarith
      · rw [roundNonneg_zero] at h
        linarith
    · have hx0 : 0 < x := lt_of_lt_of_le h0 h2
      have hlog : Int.log 2 x = E - 1 := by
        have b := log_bounds hx0
        have l1 : Int.log 2 x < E := by
          by_contra hc
          have : (2 : ℝ) ^ E ≤ 2 ^ Int.log 2 x := zpow_le_zpow_right₀ (by norm_num) (by omega)
          linarith
        have l2 : E - 1 ≤ Int.log 2 x := by
          by_contra hc
          have : (2 : ℝ) ^ (Int.log 2 x + 1) ≤ 2 ^ (E - 1) := zpow_le_zpow_right₀ (by norm_num) (by omega)
          linarith
        omega
      have hpl : lastPlace x = E - 53 := by unfold lastPlace; rw [hlog]; omega
      have hp := two_zpow_pos (E - 53)
      have e1 : (2 : ℝ) ^ E = ((2 ^ 53 : ℤ) : ℝ) * 2 ^ (E - 53) := by
        rw [cast53, ← zpow_add₀ two_ne_zero]
        congr 1
        omega
      have e2 : (2 : ℝ) ^ (E - 54) = 1 / 2 * 2 ^ (E - 53) := by
        rw [show E - 53 = 1 + (E - 54) by omega, zpow_add₀ two_ne_zero 1, zpow_one]; ring
      have hdiv : (2 : ℝ) ^ E - 2 ^ (E - 54) ≤ x ↔ (((2 ^ 53 : ℤ) : ℝ) - 1 / 2) ≤ x / 2 ^ (E - 53) := by
        rw [le_div_iff₀ hp, e1, e2, sub_mul]
      have hlt : x / 2 ^ (E - 53) < ((2 ^ 53 : ℤ) : ℝ) := by
        rw [div_lt_iff₀ hp, ← e1]; exact h1
      rw [hdiv]
      unfold roundNonneg
      rw [hpl, e1, mul_le_mul_iff_left₀ hp]
      generalize x / 2 ^ (E - 53) = u at hlt
      have hu : ⌊u⌋ ≤ 2 ^ 53 - 1 := by
        have : ⌊u⌋ < 2 ^ 53 := Int.floor_lt.2 hlt
        omega
      constructor
      · intro h
        have h' : (2 : ℤ) ^ 53 ≤ nearest u := by exact_mod_cast h
        have hfl : ⌊u⌋ = 2 ^ 53 - 1 := by
          have := nearest_le_floor u
          omega
        by_contra hc
        rw [not_le] at hc
        unfold nearest at h'
        rw [if_pos (by rw [hfl]; push_cast at hc ⊢; linarith)] at h'
        omega
      · intro h
        have hfl : ⌊u⌋ = 2 ^ 53 - 1 := by
          have : (2 ^ 53 - 1 : ℤ) ≤ ⌊u⌋ := Int.le_floor.2 (by push_cast at h ⊢; linarith)
          omega
        have : (2 : ℤ) ^ 53 ≤ nearest u := by
          unfold nearest
          rw [if_neg (by rw [hfl]; push_cast at h ⊢; linarith)]
          split_ifs with g1 g2
          · omega
          · exfalso
            rw [hfl] at g2
            revert g2; decide
          · omega
        exact_mod_cast this
  · refine ⟨fun _ => by linarith, fun _ => ?_⟩
    have hx0 : 0 < x := lt_of_lt_of_le hpE h1
    have hl : E ≤ Int.log 2 x := by
      by_contra hc
      have : (2 : ℝ) ^ (Int.log 2 x + 1) ≤ 2 ^ E := zpow_le_zpow_right₀ (by norm_num) (by omega)
      linarith [(log_bounds hx0).2]
    obtain ⟨k, hk⟩ := pow_multiple (a := Int.log 2 x) (e := lastPlace x) (by unfold lastPlace; omega)
    have := le_roundNonneg (log_bounds hx0).1 hk
    exact le_trans (zpow_le_zpow_right₀ (by norm_num) hl) this

theorem Spec.IsDouble.neg {y : ℝ} (h : IsDouble y) : IsDouble (-y) := by
  obtain ⟨m, e, rfl, h1, h2, h3⟩ := h
  exact ⟨-m, e, by push_cast; ring, by rwa [abs_neg], h2, h3⟩

theorem Spec.EvenDouble.neg {y : ℝ} (h : EvenDouble y) : EvenDouble (-y) := by
  obtain ⟨m, e, rfl, h1, h2, h3, h4⟩ := h
  exact ⟨-m, e, by push_cast; ring, by rwa [abs_neg], h2, h3, h4.neg⟩

theorem Spec.Nearest.neg {x y : ℝ} (h : Nearest x y) : Nearest (-x) (-y) := by
  have e : ∀ z, |-x - z| = |x - -z| := by
    intro z
    rw [← abs_neg]; congr 1; ring
  obtain ⟨h1, h2, h3⟩ := h
  refine ⟨h1.neg, fun z hz => ?_, fun z hz hne ht => ?_⟩
  · rw [e, e, neg_neg]; exact h2 _ hz.neg
  · rw [e, e, neg_neg] at ht
    exact (h3 _ hz.neg (fun h => hne (by rw [← h, neg_neg])) ht).neg

/-- **C31.** The rounding of the model is that of IEEE 754 binary64: a finite result is the
nearest double, of two nearest ones the even one; the result is infinite exactly from
`2 ^ 1024 - 2 ^ 970` on; doubles are kept. -/
theorem C31_nearest (x : ℝ) :
    (∀ y, (Rounding.binary64 ω).rnd x = .fin y → Nearest x y) ∧
    ((Rounding.binary64 ω).rnd x = .pinf ↔ (2 : ℝ) ^ (1024 : ℤ) - 2 ^ (970 : ℤ) ≤ x) ∧
    ((Rounding.binary64 ω).rnd x = .ninf ↔ x ≤ -((2 : ℝ) ^ (1024 : ℤ) - 2 ^ (970 : ℤ))) ∧
    (IsDouble x → (Rounding.binary64 ω).rnd x = .fin x) := by
  have hpos : (0 : ℝ) < 2 ^ (1024 : ℤ) - 2 ^ (970 : ℤ) :=
    sub_pos.2 (zpow_lt_zpow_right₀ (by norm_num) (by norm_num))
  have main : ∀ x : ℝ, 0 ≤ x → (∀ y, Double.rnd x = .fin y → Nearest x y) ∧
      (Double.rnd x = .pinf ↔ (2 : ℝ) ^ (1024 : ℤ) - 2 ^ (970 : ℤ) ≤ x) ∧ Double.rnd x ≠ .ninf := by
    intro x hx
    have ho := round_overflow hx (E := 1024) (by norm_num)
    rw [show (1024 : ℤ) - 54 = 970 by norm_num] at ho
    have hr : Double.rnd x = if (2 : ℝ) ^ (1024 : ℤ) ≤ roundNonneg x then .pinf else .fin (roundNonneg x) := by
      unfold Double.rnd
      rw [if_neg (not_lt.2 hx), big_pow]
    rw [hr]
    split_ifs with h
    · exact ⟨fun y hy => by (cases hy), ⟨fun _ => ho.1 h, fun _ => rfl⟩, nofun⟩
    · refine ⟨?_, ⟨fun hy => by (cases hy), fun hy => absurd (ho.2 hy) h⟩, nofun⟩
      intro y hy
      cases hy
      rcases hx.lt_or_eq with hx | rfl
      · exact round_nearest hx (not_le.1 h)
      · rw [roundNonneg_zero]
        have hz : IsDouble 0 := ⟨0, 0, by simp, by norm_num, by norm_num, by norm_num⟩
        exact ⟨hz, fun z _ => by simp, fun z _ _ _ => ⟨0, 0, by simp, by norm_num, by norm_num, by norm_num, by decide⟩⟩
  have hfin : (∀ y, (Rounding.binary64 ω).rnd x = .fin y → Nearest x y) ∧
      ((Rounding.binary64 ω).rnd x = .pinf ↔ (2 : ℝ) ^ (1024 : ℤ) - 2 ^ (970 : ℤ) ≤ x) ∧
      ((Rounding.binary64 ω).rnd x = .ninf ↔ x ≤ -((2 : ℝ) ^ (1024 : ℤ) - 2 ^ (970 : ℤ))) := by
    generalize (2 : ℝ) ^ (1024 : ℤ) - 2 ^ (970 : ℤ) = B at main hpos
    rcases le_or_gt 0 x with hx | hx
    · obtain ⟨h1, h2, h3⟩ := main x hx
      exact ⟨h1, h2, ⟨fun h => absurd h h3, fun h => by linarith⟩⟩
    · obtain ⟨h1, h2, h3⟩ := main (-x) (by linarith)
      have hodd : (Rounding.binary64 ω).rnd x = (Double.rnd (-x)).neg := by
        have := (Rounding.binary64 ω).odd (-x)
        rw [neg_neg] at this
        exact this
      rw [hodd]
      refine ⟨?_, ?_, ?_⟩
      · intro y hy
        have : Double.rnd (-x) = .fin (-y) := by
          cases e : Double.rnd (-x) with
          | fin z => rw [e] at hy; simp only [FNum.neg, FNum.fin.injEq] at hy; rw [← hy, neg_neg]
          | _ => rw [e] at hy; cases hy
        have := (h1 _ this).neg
        rwa [neg_neg, neg_neg] at this
      · constructor
        · intro h
          exfalso
          apply h3
          cases e : Double.rnd (-x) <;> rw [e] at h <;> first | rfl | cases h
        · intro h; linarith
      · constructor
        · intro h
          have : Double.rnd (-x) = .pinf := by
            cases e : Double.rnd (-x) <;> rw [e] at h <;> first | rfl | cases h
          linarith [h2.1 this]
        · intro h
          rw [h2.2 (by linarith)]; rfl
  refine ⟨hfin.1, hfin.2.1, hfin.2.2, fun hd => ?_⟩
  have hle : |x| ≤ 2 ^ (1024 : ℤ) - 2 ^ (971 : ℤ) := by
    obtain ⟨m, e, rfl, h1, h2, h3⟩ := hd
    rw [abs_mul, abs_of_pos (two_zpow_pos e)]
    have hm : |(m : ℝ)| ≤ 2 ^ (53 : ℤ) - 1 := by
      have : |m| ≤ 2 ^ 53 - 1 := by omega
      have h : ((|m| : ℤ) : ℝ) ≤ ((2 ^ 53 - 1 : ℤ) : ℝ) := by exact_mod_cast this
      rw [Int.cast_abs, Int.cast_sub, cast53, Int.cast_one] at h
      exact h
    have he : (2 : ℝ) ^ e ≤ 2 ^ (971 : ℤ) := zpow_le_zpow_right₀ (by norm_num) h3
    have h53 : (0 : ℝ) ≤ 2 ^ (53 : ℤ) - 1 := le_trans (abs_nonneg _) hm
    calc |(m : ℝ)| * 2 ^ e ≤ (2 ^ (53 : ℤ) - 1) * 2 ^ (971 : ℤ) :=
          mul_le_mul hm he (two_zpow_pos e).le h53
      _ = 2 ^ (1024 : ℤ) - 2 ^ (971 : ℤ) := by
          rw [sub_mul, one_mul, ← zpow_add₀ two_ne_zero]; rfl
  have hlt : (2 : ℝ) ^ (970 : ℤ) < 2 ^ (971 : ℤ) := zpow_lt_zpow_right₀ (by norm_num) (by norm_num)
  have habs := abs_le.1 hle
  clear hle
  generalize (2 : ℝ) ^ (1024 : ℤ) = B at *
  generalize (2 : ℝ) ^ (971 : ℤ) = B1 at *
  generalize (2 : ℝ) ^ (970 : ℤ) = B2 at *
  cases e : (Rounding.binary64 ω).rnd x with
  | nan => exact absurd e ((Rounding.binary64 ω).notNan x)
  | pinf => linarith [hfin.2.1.1 e, habs.2]
  | ninf => linarith [hfin.2.2.1 e, habs.1]
  | fin y =>
    have := (hfin.1 y e).2.1 x hd
    rw [sub_self, abs_zero] at this
    have : x - y = 0 := abs_eq_zero.1 (le_antisymm this (abs_nonneg _))
    rw [show y = x by linarith]

/-- The tie `2 ^ 53 + 1` goes to the even neighbour `2 ^ 53`, `2 ^ 53 + 3` to `2 ^ 53 + 4`. -/
example : (Rounding.binary64 ω).rnd (2 ^ 53 + 1) = .fin (2 ^ 53) ∧
    (Rounding.binary64 ω).rnd (2 ^ 53 + 3) = .fin (2 ^ 53 + 4) := by
  have hlog : ∀ x : ℝ, 2 ^ (53 : ℤ) ≤ x → x < 2 ^ (54 : ℤ) → lastPlace x = 1 := by
    intro x h1 h2
    have hx : 0 < x := lt_of_lt_of_le (two_zpow_pos _) h1
    have b := log_bounds hx
    have l1 : Int.log 2 x < 54 := by
      by_contra hc
      have : (2 : ℝ) ^ (54 : ℤ) ≤ 2 ^ Int.log 2 x := zpow_le_zpow_right₀ (by norm_num) (by omega)
      linarith
    have l2 : 53 ≤ Int.log 2 x := by
      by_contra hc
      have : (2 : ℝ) ^ (Int.log 2 x + 1) ≤ 2 ^ (53 : ℤ) := zpow_le_zpow_right₀ (by norm_num) (by omega)
      linarith
    unfold lastPlace
    omega
  have hb : ∀ y : ℝ, y ≤ 2 ^ (60 : ℤ) → ¬ (2 : ℝ) ^ 1024 ≤ y := by
    intro y hy h
    rw [big_pow] at h
    have : (2 : ℝ) ^ (60 : ℤ) < 2 ^ (1024 : ℤ) := zpow_lt_zpow_right₀ (by norm_num) (by norm_num)
    exact absurd (h.trans hy) (not_le.2 this)
  have key : ∀ (x y : ℝ), roundNonneg x = y → 0 ≤ x → y ≤ 2 ^ (60 : ℤ) → (Rounding.binary64 ω).rnd x = .fin y := by
    rintro x y rfl hx hy
    show Double.rnd x = _
    unfold Double.rnd
    rw [if_neg (not_lt.2 hx), if_neg (hb _ hy)]
  constructor
  · refine key _ _ ?_ (by norm_num) (by norm_num)
    unfold roundNonneg
    rw [hlog _ (by norm_num) (by norm_num)]
    have hf : ⌊((2 : ℝ) ^ 53 + 1) / 2 ^ (1 : ℤ)⌋ = 2 ^ 52 := by
      rw [Int.floor_eq_iff]; norm_num
    have : nearest (((2 : ℝ) ^ 53 + 1) / 2 ^ (1 : ℤ)) = 2 ^ 52 := by
      unfold nearest
      rw [hf, if_neg (by norm_num), if_neg (by norm_num), if_pos (by decide)]
    rw [this]; norm_num
  · refine key _ _ ?_ (by norm_num) (by norm_num)
    unfold roundNonneg
    rw [hlog _ (by norm_num) (by norm_num)]
    have hf : ⌊((2 : ℝ) ^ 53 + 3) / 2 ^ (1 : ℤ)⌋ = 2 ^ 52 + 1 := by
      rw [Int.floor_eq_iff]; norm_num
    have : nearest (((2 : ℝ) ^ 53 + 3) / 2 ^ (1 : ℤ)) = 2 ^ 52 + 2 := by
      unfold nearest
      rw [hf, if_neg (by norm_num), if_neg (by norm_num), if_neg (by decide)]
      norm_num
    rw [this]; norm_num

end TD
