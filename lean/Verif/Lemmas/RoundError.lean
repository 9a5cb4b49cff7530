import Verif.Lemmas.Finite
import Verif.Props.Range
import Verif.Lemmas.Distance
import Mathlib.Analysis.InnerProductSpace.PiL2
/-! Rounding errors of binary64 sums, norms and scalar products. -/

namespace TD
open Spec Double

/-- Relative error of one rounding. -/
noncomputable def uu : ℝ := 2 ^ (-53 : ℤ)
/-- Absolute error of one rounding near zero. -/
noncomputable def ee : ℝ := 2 ^ (-1075 : ℤ)
/-- Numbers up to this size do not overflow. -/
noncomputable def big : ℝ := 2 ^ (1023 : ℤ)

theorem uu_pos : 0 < uu := two_zpow_pos _
theorem ee_pos : 0 < ee := two_zpow_pos _

theorem round_pos {x : ℝ} (h0 : 0 < x) (h : x ≤ big) :
    ∃ y, (Rounding.binary64 ω).rnd x = .fin y ∧ |y - x| ≤ uu * x + ee ∧ (2 ^ (-1022 : ℤ) ≤ x → |y - x| ≤ uu * x) := by
  obtain ⟨y, hy, hr, y0, y2⟩ := rnd_between (R := .binary64 ω) rep_zero (rep_two (a := 1023) (by norm_num) (by norm_num)) h0.le h
  refine ⟨y, hy, ?_⟩
  have e : y = roundNonneg x := by
    have : Double.rnd x = .fin y := hy
    rw [rnd_nonneg h0.le] at this
    split_ifs at this
    exact (FNum.fin.inj this).symm
  rw [e]
  have half := round_half (x := x)
  obtain ⟨b1, b2⟩ := Double.log_bounds h0
  have small : ∀ k : ℤ, (2 : ℝ) ^ (k - 52) / 2 = 2 ^ k * uu := by
    intro k
    have : (2 : ℝ) ^ (k - 52) = 2 ^ k * 2 ^ (-53 : ℤ) * 2 := by
      rw [← zpow_add₀ two_ne_zero, ← zpow_add_one₀ two_ne_zero]
      congr 1; ring
    rw [this, uu]; ring
  have tiny : (2 : ℝ) ^ (-1074 : ℤ) / 2 = ee := by
    rw [show (-1074 : ℤ) = -1075 + 1 by norm_num, zpow_add_one₀ two_ne_zero, ee]; ring
  have normal : Int.log 2 x - 52 ≥ -1074 → |roundNonneg x - x| ≤ uu * x := by
    intro hl
    have hlp : lastPlace x = Int.log 2 x - 52 := by unfold lastPlace; omega
    rw [hlp, small] at half
    have := mul_le_mul_of_nonneg_left b1 uu_pos.le
    linarith
  constructor
  · by_cases hl : Int.log 2 x - 52 ≥ -1074
    · have := normal hl
      linarith [ee_pos]
    · have hlp : lastPlace x = -1074 := by unfold lastPlace; omega
      rw [hlp, tiny] at half
      have := mul_pos uu_pos h0
      linarith
  · intro hx
    refine normal ?_
    have : (2 : ℝ) ^ (-1022 : ℤ) < 2 ^ (Int.log 2 x + 1) := lt_of_le_of_lt hx b2
    have := (zpow_lt_zpow_iff_right₀ (one_lt_two)).1 this
    omega

/-- One rounding. -/
theorem round_err {x : ℝ} (h : |x| ≤ big) :
    ∃ y, (Rounding.binary64 ω).rnd x = .fin y ∧ IsDouble y ∧ |y - x| ≤ uu * |x| + ee ∧
      (2 ^ (-1022 : ℤ) ≤ |x| → |y - x| ≤ uu * |x|) := by
  have dbl : ∀ y, (Rounding.binary64 ω).rnd x = .fin y → IsDouble y := fun y hy => ((C31_nearest x).1 y hy).1
  rcases lt_trichotomy x 0 with hx | rfl | hx
  · rw [abs_of_neg hx] at h ⊢
    obtain ⟨y, hy, h1, h2⟩ := round_pos (x := -x) (by linarith) h
    have hy' : (Rounding.binary64 ω).rnd x = .fin (-y) := by
      have := (Rounding.binary64 ω).odd (-x)
      rw [neg_neg, hy] at this
      exact this
    have e : |(-y) - x| = |y - (-x)| := by
      rw [← abs_neg]; congr 1; ring
    refine ⟨-y, hy', dbl _ hy', ?_, ?_⟩
    · rw [e]; exact h1
    · rw [e]; exact h2
  · have hy : (Rounding.binary64 ω).rnd 0 = .fin 0 := Rounding.zero _
    exact ⟨0, hy, dbl _ hy, by simpa using ee_pos.le, by simp⟩
  · rw [abs_of_pos hx] at h ⊢
    obtain ⟨y, hy, h1, h2⟩ := round_pos hx h
    exact ⟨y, hy, dbl _ hy, h1, h2⟩

/-- Doubles are multiples of the smallest one. -/
theorem double_grid {x : ℝ} (h : IsDouble x) : ∃ k : ℤ, x = k * 2 ^ (-1074 : ℤ) := by
  obtain ⟨m, e, rfl, -, h1, -⟩ := h
  obtain ⟨k, hk⟩ := pow_multiple h1
  exact ⟨m * k, by rw [hk]; push_cast; ring⟩

theorem IsDouble.neg {x : ℝ} (h : IsDouble x) : IsDouble (-x) := by
  obtain ⟨m, e, rfl, h1, h2, h3⟩ := h
  exact ⟨-m, e, by push_cast; ring, by rwa [abs_neg], h2, h3⟩

theorem isDouble_zero : IsDouble 0 := ⟨0, 0, by simp, by norm_num, by norm_num, by norm_num⟩

/-- The sum of two doubles is rounded with a relative error, however small it is. -/
theorem add_err {x y : ℝ} (hx : IsDouble x) (hy : IsDouble y) (h : |x + y| ≤ big) :
    ∃ z, (Rounding.binary64 ω).rnd (x + y) = .fin z ∧ IsDouble z ∧ |z - (x + y)| ≤ uu * |x + y| := by
  by_cases hn : (2 : ℝ) ^ (-1022 : ℤ) ≤ |x + y|
  · obtain ⟨z, h1, h2, -, h3⟩ := round_err h
    exact ⟨z, h1, h2, h3 hn⟩
  · obtain ⟨k, hk⟩ := double_grid hx
    obtain ⟨j, hj⟩ := double_grid hy
    have e : x + y = ((k + j : ℤ) : ℝ) * 2 ^ (-1074 : ℤ) := by rw [hk, hj]; push_cast; ring
    have hd : IsDouble (x + y) := by
      refine ⟨k + j, -1074, e, ?_, le_rfl, by norm_num⟩
      rw [not_le, e, abs_mul, abs_of_pos (two_zpow_pos (-1074))] at hn
      have : (2 : ℝ) ^ (-1022 : ℤ) = 2 ^ (52 : ℤ) * 2 ^ (-1074 : ℤ) := by
        rw [← zpow_add₀ two_ne_zero]; norm_num
      rw [this] at hn
      have h4 := lt_of_mul_lt_mul_right hn (two_zpow_pos (-1074)).le
      have h5 : |k + j| < 2 ^ 52 := by
        have h6 : ((|k + j| : ℤ) : ℝ) < 2 ^ (52 : ℤ) := by rw [Int.cast_abs]; exact h4
        have h7 : ((|k + j| : ℤ) : ℝ) < ((2 ^ 52 : ℤ) : ℝ) := by
          refine lt_of_lt_of_eq h6 ?_
          norm_num
        exact_mod_cast h7
      omega
    exact ⟨x + y, (C31_nearest _).2.2.2 hd, hd, by simpa using mul_nonneg uu_pos.le (abs_nonneg _)⟩

/-- `(1 + u) ^ n` for moderate `n`. -/
theorem pow_uu {n : Nat} (h : n ≤ 2 ^ 51) : (1 + uu) ^ n ≤ 1 + 2 * (n * uu) ∧ (1 + uu) ^ n ≤ 2 := by
  have hu := uu_pos
  have hn : (n : ℝ) * uu ≤ 1 / 4 := by
    have h1 : (n : ℝ) ≤ 2 ^ (51 : ℤ) := by exact_mod_cast h
    calc (n : ℝ) * uu ≤ 2 ^ (51 : ℤ) * uu := mul_le_mul_of_nonneg_right h1 hu.le
      _ = 1 / 4 := by rw [uu, ← zpow_add₀ two_ne_zero]; norm_num
  have hu1 : uu ≤ 1 := by rw [uu]; exact zpow_le_one_of_nonpos₀ one_le_two (by norm_num)
  have b : 1 - n * uu ≤ (1 - uu) ^ n := by
    have := one_add_mul_le_pow (a := -uu) (by linarith) n
    have e : (1 : ℝ) + -uu = 1 - uu := by ring
    rw [e] at this
    linarith
  have p : (1 + uu) ^ n * (1 - uu) ^ n ≤ 1 := by
    rw [← mul_pow]
    exact pow_le_one₀ (by nlinarith) (by nlinarith)
  have q0 : 0 ≤ (1 + uu) ^ n := by positivity
  generalize (1 + uu) ^ n = q at *
  generalize (1 - uu) ^ n = r at *
  have n0 : 0 ≤ (n : ℝ) * uu := by positivity
  generalize (n : ℝ) * uu = t at *
  have h1 : q * (1 - t) ≤ 1 := (mul_le_mul_of_nonneg_left b q0).trans p
  have h2 : q ≤ 1 + 2 * t := by
    have : (1 : ℝ) ≤ (1 + 2 * t) * (1 - t) := by nlinarith
    have := h1.trans this
    exact le_of_mul_le_mul_right this (by linarith)
  exact ⟨h2, by linarith⟩

section Sums
variable {A : Type}

/-- Error of a sum of two computed numbers. -/
theorem node_bound {L₁ L₂ A₁ A₂ S₁ S₂ T₁ T₂ q₁ q₂ z : ℝ} (hq₁ : 1 + uu ≤ q₁) (hq₂ : 1 + uu ≤ q₂) (hT₁ : 0 ≤ T₁)
    (hT₂ : 0 ≤ T₂) (hA₁ : |A₁| ≤ S₁) (hA₂ : |A₂| ≤ S₂) (h₁ : |L₁ - A₁| ≤ (q₁ - 1) * S₁ + T₁ * q₁)
    (h₂ : |L₂ - A₂| ≤ (q₂ - 1) * S₂ + T₂ * q₂) (hz : |z - (L₁ + L₂)| ≤ uu * |L₁ + L₂|) :
    |z - (A₁ + A₂)| ≤ (q₁ * q₂ - 1) * (S₁ + S₂) + (T₁ + T₂) * (q₁ * q₂) := by
  have hu := uu_pos
  have S₁0 := (abs_nonneg A₁).trans hA₁
  have S₂0 := (abs_nonneg A₂).trans hA₂
  have b₁ : |L₁| ≤ q₁ * S₁ + T₁ * q₁ := by
    have := abs_add_le (L₁ - A₁) A₁
    rw [sub_add_cancel] at this
    linarith
  have b₂ : |L₂| ≤ q₂ * S₂ + T₂ * q₂ := by
    have := abs_add_le (L₂ - A₂) A₂
    rw [sub_add_cancel] at this
    linarith
  have b : uu * |L₁ + L₂| ≤ uu * (q₁ * S₁ + T₁ * q₁ + (q₂ * S₂ + T₂ * q₂)) :=
    mul_le_mul_of_nonneg_left ((abs_add_le _ _).trans (add_le_add b₁ b₂)) hu.le
  have t : |z - (A₁ + A₂)| ≤ |z - (L₁ + L₂)| + (|L₁ - A₁| + |L₂ - A₂|) := by
    have h1 := abs_add_le (z - (L₁ + L₂)) ((L₁ - A₁) + (L₂ - A₂))
    have h2 := abs_add_le (L₁ - A₁) (L₂ - A₂)
    rw [show z - (L₁ + L₂) + (L₁ - A₁ + (L₂ - A₂)) = z - (A₁ + A₂) by ring] at h1
    linarith
  have c₁ : q₁ * (1 + uu) * (S₁ + T₁) ≤ q₁ * q₂ * (S₁ + T₁) :=
    mul_le_mul_of_nonneg_right (mul_le_mul_of_nonneg_left hq₂ (by linarith)) (by linarith)
  have c₂ : q₂ * (1 + uu) * (S₂ + T₂) ≤ q₂ * q₁ * (S₂ + T₂) :=
    mul_le_mul_of_nonneg_right (mul_le_mul_of_nonneg_left hq₁ (by linarith)) (by linarith)
  nlinarith

theorem subperm_sum_le {l m : List A} (h : l.Subperm m) (f : A → ℝ) (hf : ∀ a, 0 ≤ f a) :
    (l.map f).sum ≤ (m.map f).sum := by
  obtain ⟨l', hp, hs⟩ := h
  rw [← (hp.map f).sum_eq]
  exact (hs.map f).sum_le_sum (by simpa using fun a _ => hf a)

theorem pow_uu_le {m n : Nat} (h : m ≤ n) : (1 + uu) ^ m ≤ (1 + uu) ^ n :=
  pow_le_pow_right₀ (by linarith [uu_pos]) h

theorem le_pow_uu {l : List A} (h : l ≠ []) : 1 + uu ≤ (1 + uu) ^ l.length := by
  have := pow_uu_le (m := 1) (n := l.length) (List.length_pos_iff.2 h)
  rwa [pow_one] at this

theorem abs_sum_le (l : List A) (f : A → ℝ) : |(l.map f).sum| ≤ (l.map fun a => |f a|).sum := by
  induction l with
  | nil => simp
  | cons a l ih =>
    simp only [List.map_cons, List.sum_cons]
    exact (abs_add_le _ _).trans (by linarith)

/-- Sums in any order. -/
theorem sum_err (as : List A) (f : A → ℝ) (hf : ∀ a ∈ as, IsDouble (f a))
    (hB : (as.map fun a => |f a|).sum * (1 + uu) ^ as.length ≤ big) :
    ∃ L, IsDouble L ∧ (Arith.sum (as.map fun a => FP.fin (f a)) : FP (.binary64 ω)) = FP.fin L ∧
      |L - (as.map f).sum| ≤ ((1 + uu) ^ as.length - 1) * (as.map fun a => |f a|).sum := by
  obtain ⟨l, hl, h⟩ := sum_order_fp (R := .binary64 ω) as (fun a => FP.fin (f a))
    (fun l x => (l ≠ [] ∨ as = []) ∧ ∃ L, IsDouble L ∧ x = FP.fin L ∧
      |L - (l.map f).sum| ≤ ((1 + uu) ^ l.length - 1) * (l.map fun a => |f a|).sum + 0 * (1 + uu) ^ l.length)
    (fun h => ⟨.inr h, 0, isDouble_zero, rfl, by simp⟩)
    (fun a ha => by
      refine ⟨.inl (by simp), f a, hf a ha, ?_, ?_⟩
      · show (Rounding.binary64 ω).rnd (0 + f a) = _
        rw [zero_add]
        exact (C31_nearest (f a)).2.2.2 (hf a ha)
      · simpa using mul_nonneg uu_pos.le (abs_nonneg (f a)))
    (fun l m x y hs hx hy => by
      obtain ⟨hl, L, d1, rfl, e1⟩ := hx
      obtain ⟨hm, M, d2, rfl, e2⟩ := hy
      rcases eq_or_ne as [] with h0 | h0
      · subst h0
        have := List.subperm_nil.1 hs
        obtain ⟨rfl, rfl⟩ := List.append_eq_nil_iff.1 this
        have hL : L = 0 := by simpa using e1
        have hM : M = 0 := by simpa using e2
        subst hL hM
        refine ⟨.inr rfl, 0, isDouble_zero, ?_, by simp⟩
        show (Rounding.binary64 ω).rnd (0 + 0) = _
        rw [add_zero]
        exact Rounding.zero _
      have q1 := le_pow_uu (hl.resolve_right h0)
      have q2 := le_pow_uu (hm.resolve_right h0)
      have a1 := abs_sum_le l f
      have a2 := abs_sum_le m f
      have tot := subperm_sum_le hs (fun a => |f a|) fun a => abs_nonneg _
      have q3 := pow_uu_le hs.length_le
      rw [List.map_append, List.sum_append] at tot
      rw [List.length_append, pow_add] at q3
      have hov : |L + M| ≤ big := by
        refine le_trans ?_ hB
        have t1 : |L| ≤ (1 + uu) ^ l.length * (l.map fun a => |f a|).sum := by
          have := abs_add_le (L - (l.map f).sum) (l.map f).sum
          rw [sub_add_cancel] at this
          linarith
        have t2 : |M| ≤ (1 + uu) ^ m.length * (m.map fun a => |f a|).sum := by
          have := abs_add_le (M - (m.map f).sum) (m.map f).sum
          rw [sub_add_cancel] at this
          linarith
        have s1 := (abs_nonneg _).trans a1
        have s2 := (abs_nonneg _).trans a2
        have hu := uu_pos
        refine (abs_add_le _ _).trans ((add_le_add t1 t2).trans ?_)
        generalize (1 + uu) ^ l.length = p at *
        generalize (1 + uu) ^ m.length = q at *
        generalize (1 + uu) ^ as.length = r at *
        generalize (l.map fun a => |f a|).sum = S at *
        generalize (m.map fun a => |f a|).sum = T at *
        generalize (as.map fun a => |f a|).sum = U at *
        have c1 : p * S ≤ r * S := mul_le_mul_of_nonneg_right (by nlinarith) s1
        have c2 : q * T ≤ r * T := mul_le_mul_of_nonneg_right (by nlinarith) s2
        have r0 : 0 ≤ r := by nlinarith
        have c3 := mul_le_mul_of_nonneg_left tot r0
        linarith
      obtain ⟨z, hz, dz, ez⟩ := add_err (ω := ω) d1 d2 hov
      refine ⟨.inl ?_, z, dz, hz, ?_⟩
      · intro h
        exact (hl.resolve_right h0) (List.append_eq_nil_iff.1 h).1
      · have := node_bound q1 q2 le_rfl le_rfl a1 a2 e1 e2 ez
        rw [List.map_append, List.map_append, List.sum_append, List.sum_append, List.length_append, pow_add]
        rwa [add_zero] at this)
  obtain ⟨-, L, h1, h2, h3⟩ := h
  refine ⟨L, h1, h2, ?_⟩
  rw [(hl.map f).sum_eq, (hl.map fun a => |f a|).sum_eq, hl.length_eq] at h3
  linarith

theorem sum_map_le {as : List A} {f g : A → ℝ} (h : ∀ a ∈ as, f a ≤ g a) : (as.map f).sum ≤ (as.map g).sum :=
  List.sum_le_sum h

theorem sum_map_mul (as : List A) (c : ℝ) (f : A → ℝ) : (as.map fun a => c * f a).sum = c * (as.map f).sum :=
  List.sum_map_mul_left as f c

theorem sum_map_const (as : List A) (c : ℝ) : (as.map fun _ => c).sum = as.length * c := by simp

theorem sum_map_add (as : List A) (f g : A → ℝ) :
    (as.map fun a => f a + g a).sum = (as.map f).sum + (as.map g).sum := List.sum_map_add

theorem sum_map_abs_sub (as : List A) (f g : A → ℝ) : |(as.map f).sum - (as.map g).sum| ≤ (as.map fun a => |f a - g a|).sum := by
  induction as with
  | nil => simp
  | cons a as ih =>
    simp only [List.map_cons, List.sum_cons]
    have := abs_add_le (f a - g a) ((as.map f).sum - (as.map g).sum)
    rw [show f a - g a + ((as.map f).sum - (as.map g).sum) = f a + (as.map f).sum - (g a + (as.map g).sum) by ring] at this
    linarith

/-- Sums of numbers that carry errors already. -/
theorem sum_err' (as : List A) (hn : as.length ≤ 2 ^ 50) (f g : A → ℝ) (c t : ℝ) (hc0 : 0 ≤ c) (hc : c ≤ 1) (ht0 : 0 ≤ t) (hf : ∀ a ∈ as, IsDouble (f a))
    (he : ∀ a ∈ as, |f a - g a| ≤ c * |g a| + t) (hB : 4 * ((as.map fun a => |g a|).sum + as.length * t) ≤ big) :
    ∃ L, IsDouble L ∧ (Arith.sum (as.map fun a => FP.fin (f a)) : FP (.binary64 ω)) = FP.fin L ∧
      |L - (as.map g).sum| ≤ (4 * (as.length * uu) + c) * (as.map fun a => |g a|).sum + 2 * (as.length * t) := by
  obtain ⟨p1, p2⟩ := pow_uu (n := as.length) (by omega)
  have p0 : 1 ≤ (1 + uu) ^ as.length := one_le_pow₀ (by linarith [uu_pos])
  have hS : (as.map fun a => |f a|).sum ≤ (1 + c) * (as.map fun a => |g a|).sum + as.length * t := by
    rw [← sum_map_mul, ← sum_map_const as t, ← sum_map_add]
    refine sum_map_le fun a ha => ?_
    have h1 : |f a| ≤ |f a - g a| + |g a| := by
      have := abs_add_le (f a - g a) (g a)
      rwa [sub_add_cancel] at this
    have := he a ha
    linarith
  have g0 : 0 ≤ (as.map fun a => |g a|).sum := List.sum_nonneg (by simp)
  have f0 : 0 ≤ (as.map fun a => |f a|).sum := List.sum_nonneg (by simp)
  have n0 : 0 ≤ (as.length : ℝ) * uu := mul_nonneg (Nat.cast_nonneg _) uu_pos.le
  have t0 : 0 ≤ (as.length : ℝ) * t := mul_nonneg (Nat.cast_nonneg _) ht0
  have hD : |(as.map f).sum - (as.map g).sum| ≤ c * (as.map fun a => |g a|).sum + as.length * t := by
    refine (sum_map_abs_sub as f g).trans ?_
    rw [← sum_map_mul, ← sum_map_const as t, ← sum_map_add]
    exact sum_map_le he
  obtain ⟨L, h1, h2, h3⟩ := sum_err as f hf (by
    have := mul_le_mul_of_nonneg_left p2 f0
    nlinarith)
  refine ⟨L, h1, h2, ?_⟩
  have h4 : |L - (as.map g).sum| ≤ |L - (as.map f).sum| + |(as.map f).sum - (as.map g).sum| := abs_sub_le _ _ _
  generalize (as.map fun a => |g a|).sum = G at *
  generalize (as.map fun a => |f a|).sum = F at *
  generalize (1 + uu) ^ as.length = q at *
  generalize (as.length : ℝ) * uu = n at *
  generalize (as.length : ℝ) * t = T at *
  have h5 : (q - 1) * F ≤ (2 * n) * (2 * G) + T := by
    have a1 : (q - 1) * F ≤ (q - 1) * ((1 + c) * G + T) := mul_le_mul_of_nonneg_left hS (by linarith)
    have a2 : (q - 1) * ((1 + c) * G) ≤ (2 * n) * (2 * G) :=
      mul_le_mul (by linarith) (by nlinarith) (by nlinarith) (by linarith)
    have a3 : (q - 1) * T ≤ 1 * T := mul_le_mul_of_nonneg_right (by linarith) t0
    linarith
  linarith

end Sums

/-- Square roots of numbers that carry errors. -/
theorem sqrt_err {S T g t : ℝ} (hS : 0 ≤ S) (hT : 0 ≤ T) (hg : 0 ≤ g) (ht : 0 ≤ t) (h : |T - S| ≤ g * S + t) :
    |Real.sqrt T - Real.sqrt S| ≤ g * Real.sqrt S + Real.sqrt t := by
  have e1 := Real.sq_sqrt hS
  have e2 := Real.sq_sqrt hT
  have e3 := Real.sq_sqrt ht
  have n1 := Real.sqrt_nonneg S
  have n2 := Real.sqrt_nonneg T
  have n3 := Real.sqrt_nonneg t
  rw [abs_le] at h ⊢
  obtain ⟨h1, h2⟩ := h
  generalize Real.sqrt S = s at *
  generalize Real.sqrt T = r at *
  generalize Real.sqrt t = τ at *
  subst e1 e2 e3
  constructor
  · by_contra hc
    push Not at hc
    have a1 : r + τ < (1 - g) * s := by nlinarith
    have hg1 : g < 1 := by
      by_contra hg1
      push Not at hg1
      nlinarith
    nlinarith [mul_nonneg n2 n3, mul_nonneg hg n1]
  · by_contra hc
    push Not at hc
    have a1 : (1 + g) * s + τ < r := by nlinarith
    nlinarith [mul_nonneg n1 n3, mul_nonneg hg n1, mul_nonneg (mul_nonneg hg n1) n3]


theorem isDouble_abs {x : ℝ} (h : IsDouble x) : IsDouble |x| := by
  rcases abs_choice x with e | e <;> rw [e]
  · exact h
  · exact h.neg

/-- The terms `4 (n M + n t)` that bound the sums do not overflow. -/
theorem no_overflow {A : Type} (as : List A) (hn : as.length ≤ 2 ^ 50) (g : A → ℝ) (hg : ∀ a ∈ as, |g a| ≤ 2 ^ (804 : ℤ)) {t : ℝ}
    (ht : t ≤ 1) : 4 * ((as.map fun a => |g a|).sum + as.length * t) ≤ big := by
  have h1 : (as.map fun a => |g a|).sum ≤ as.length * 2 ^ (804 : ℤ) := by
    rw [← sum_map_const]
    exact sum_map_le hg
  have hn' : (as.length : ℝ) ≤ 2 ^ (50 : ℤ) := by exact_mod_cast hn
  have one : (1 : ℝ) ≤ 2 ^ (804 : ℤ) := one_le_zpow₀ one_le_two (by norm_num)
  have h2 : (as.length : ℝ) * t ≤ as.length * 2 ^ (804 : ℤ) := mul_le_mul_of_nonneg_left (ht.trans one) (Nat.cast_nonneg _)
  have h3 : (as.length : ℝ) * 2 ^ (804 : ℤ) ≤ 2 ^ (50 : ℤ) * 2 ^ (804 : ℤ) :=
    mul_le_mul_of_nonneg_right hn' (two_zpow_pos _).le
  have h4 : (2 : ℝ) ^ (50 : ℤ) * 2 ^ (804 : ℤ) * 8 ≤ big := by
    have : (8 : ℝ) = 2 ^ (3 : ℤ) := by norm_num
    rw [this, ← zpow_add₀ two_ne_zero, ← zpow_add₀ two_ne_zero, big]
    exact zpow_le_zpow_right₀ one_le_two (by norm_num)
  clear one hn'
  generalize (2 : ℝ) ^ (50 : ℤ) * 2 ^ (804 : ℤ) = B at *
  generalize (as.length : ℝ) * 2 ^ (804 : ℤ) = C at *
  linarith

theorem ee_le_one : ee ≤ 1 := zpow_le_one_of_nonpos₀ one_le_two (by norm_num)

theorem le_big {k : ℤ} (h : k ≤ 1023) : (2 : ℝ) ^ k ≤ big := zpow_le_zpow_right₀ one_le_two h

/-- Scalar products. -/
theorem dot_err {A : Type} (as : List A) (hn : as.length ≤ 2 ^ 50) (f g : A → ℝ)
    (hf : ∀ a ∈ as, |f a| ≤ 2 ^ (402 : ℤ)) (hg : ∀ a ∈ as, |g a| ≤ 2 ^ (402 : ℤ)) :
    ∃ L, IsDouble L ∧ (Arith.dot (as.map fun a => FP.fin (f a)) (as.map fun a => FP.fin (g a)) : FP (.binary64 ω)) = FP.fin L ∧
      |L - (as.map fun a => f a * g a).sum| ≤
        (4 * (as.length * uu) + uu) * (as.map fun a => |f a * g a|).sum + 2 * (as.length * ee) := by
  have hfg : ∀ a ∈ as, |f a * g a| ≤ 2 ^ (804 : ℤ) := by
    intro a ha
    rw [abs_mul]
    calc |f a| * |g a| ≤ 2 ^ (402 : ℤ) * 2 ^ (402 : ℤ) := mul_le_mul (hf a ha) (hg a ha) (abs_nonneg _) (two_zpow_pos _).le
      _ = 2 ^ (804 : ℤ) := by rw [← zpow_add₀ two_ne_zero]; norm_num
  have hu1 : uu ≤ 1 := zpow_le_one_of_nonpos₀ one_le_two (by norm_num)
  have hee := ee_pos
  obtain ⟨p1, p2⟩ := pow_uu (n := as.length) (by omega)
  have hB := no_overflow as hn (fun a => f a * g a) hfg ee_le_one
  -- sums over parts
  have part : ∀ l : List A, l.Subperm as → (l.map fun a => |f a * g a|).sum * (1 + uu) ^ l.length +
      l.length * ee * (1 + uu) ^ l.length ≤ big := by
    intro l hs
    have tot := subperm_sum_le hs (fun a => |f a * g a|) fun a => abs_nonneg _
    have q3 := (pow_uu_le hs.length_le).trans p2
    have hlen : (l.length : ℝ) * ee ≤ as.length * ee :=
      mul_le_mul_of_nonneg_right (by exact_mod_cast hs.length_le) hee.le
    have s0 : 0 ≤ (l.map fun a => |f a * g a|).sum := (abs_nonneg _).trans (abs_sum_le l fun a => f a * g a)
    have l0 : 0 ≤ (l.length : ℝ) * ee := by positivity
    have c1 := mul_le_mul_of_nonneg_left q3 s0
    have c2 := mul_le_mul_of_nonneg_left q3 l0
    nlinarith
  have size : ∀ (l : List A) (L : ℝ), |L - (l.map fun a => f a * g a).sum| ≤
      ((1 + uu) ^ l.length - 1) * (l.map fun a => |f a * g a|).sum + l.length * ee * (1 + uu) ^ l.length →
      |L| ≤ (l.map fun a => |f a * g a|).sum * (1 + uu) ^ l.length + l.length * ee * (1 + uu) ^ l.length := by
    intro l L h
    have := abs_add_le (L - (l.map fun a => f a * g a).sum) (l.map fun a => f a * g a).sum
    rw [sub_add_cancel] at this
    have := abs_sum_le l fun a => f a * g a
    linarith
  obtain ⟨l, hl, h⟩ := dot_order_fp (R := .binary64 ω) as (fun a => FP.fin (f a)) (fun a => FP.fin (g a))
    (fun l x => ∃ L, IsDouble L ∧ x = FP.fin L ∧ (l = [] → L = 0) ∧
      |L - (l.map fun a => f a * g a).sum| ≤ ((1 + uu) ^ l.length - 1) * (l.map fun a => |f a * g a|).sum +
        l.length * ee * (1 + uu) ^ l.length)
    (fun h => ⟨0, isDouble_zero, rfl, fun _ => rfl, by simp⟩)
    (fun a ha => by
      obtain ⟨y, h1, h2, h3, -⟩ := round_err (ω := ω) ((hfg a ha).trans (le_big (by norm_num)))
      refine ⟨y, h2, h1, by simp, ?_⟩
      have : 0 ≤ ee * uu := mul_nonneg hee.le uu_pos.le
      simp only [List.map_cons, List.map_nil, List.sum_singleton, List.length_singleton, pow_one, Nat.cast_one]
      linarith)
    (fun a l y hs hy => by
      obtain ⟨L, d1, rfl, -, e1⟩ := hy
      have ha : a ∈ as := hs.subset (by simp)
      have hp := part _ hs
      have hsz := size l L e1
      have q1 : 1 ≤ (1 + uu) ^ l.length := one_le_pow₀ (by linarith [uu_pos])
      have s0 : 0 ≤ (l.map fun a => |f a * g a|).sum := (abs_nonneg _).trans (abs_sum_le l fun a => f a * g a)
      have x0 := abs_nonneg (f a * g a)
      have l0 : 0 ≤ (l.length : ℝ) * ee := by positivity
      have hu := uu_pos
      simp only [List.map_cons, List.sum_cons, List.length_cons, pow_succ, Nat.cast_add, Nat.cast_one] at hp ⊢
      have tri := abs_add_le (f a * g a) L
      have hov : |f a * g a + L| ≤ big := by
        refine tri.trans (le_trans ?_ hp)
        generalize (1 + uu) ^ l.length = p at *
        generalize (l.map fun a => |f a * g a|).sum = S at *
        have c1 : 1 ≤ p * (1 + uu) := by nlinarith
        have c2 : |f a * g a| ≤ |f a * g a| * (p * (1 + uu)) := le_mul_of_one_le_right x0 c1
        have c3 : p ≤ p * (1 + uu) := by nlinarith
        have c4 := mul_le_mul_of_nonneg_left c3 s0
        have c5 := mul_le_mul_of_nonneg_left c3 l0
        have c6 : 0 ≤ ee * (p * (1 + uu)) := by positivity
        nlinarith
      obtain ⟨z, h1, h2, h3, -⟩ := round_err (ω := ω) hov
      refine ⟨z, h2, h1, by simp, ?_⟩
      have t : |z - (f a * g a + (l.map fun a => f a * g a).sum)| ≤ |z - (f a * g a + L)| + |L - (l.map fun a => f a * g a).sum| := by
        have := abs_add_le (z - (f a * g a + L)) (L - (l.map fun a => f a * g a).sum)
        rwa [show z - (f a * g a + L) + (L - (l.map fun a => f a * g a).sum) =
          z - (f a * g a + (l.map fun a => f a * g a).sum) by ring] at this
      have b : uu * |f a * g a + L| ≤ uu * (|f a * g a| + ((l.map fun a => |f a * g a|).sum * (1 + uu) ^ l.length +
          l.length * ee * (1 + uu) ^ l.length)) := mul_le_mul_of_nonneg_left (by linarith) hu.le
      refine t.trans ((add_le_add (h3.trans (add_le_add b le_rfl)) e1).trans ?_)
      rw [show ((l.length : ℝ) + 1) * ee = l.length * ee + ee by ring]
      generalize (1 + uu) ^ l.length = p at *
      generalize (l.map fun a => |f a * g a|).sum = S at *
      generalize |f a * g a| = x at *
      generalize (l.length : ℝ) * ee = n at *
      have c1 : 1 + uu ≤ p * (1 + uu) := by nlinarith
      have c2 := mul_le_mul_of_nonneg_right c1 x0
      have c3 : ee ≤ ee * (p * (1 + uu)) := le_mul_of_one_le_right hee.le (by nlinarith)
      linarith)
    (fun l m x y hs hx hy => by
      obtain ⟨L, d1, rfl, z1, e1⟩ := hx
      obtain ⟨M, d2, rfl, z2, e2⟩ := hy
      have add0 : ∀ x, IsDouble x → (Rounding.binary64 ω).rnd x = .fin x := fun x hx => (C31_nearest x).2.2.2 hx
      rcases eq_or_ne l [] with rfl | hl
      · obtain rfl := z1 rfl
        refine ⟨M, d2, ?_, by simpa using z2, by simpa using e2⟩
        show (Rounding.binary64 ω).rnd (0 + M) = _
        rw [zero_add]; exact add0 M d2
      rcases eq_or_ne m [] with rfl | hm
      · obtain rfl := z2 rfl
        refine ⟨L, d1, ?_, by simpa using z1, by simpa using e1⟩
        show (Rounding.binary64 ω).rnd (L + 0) = _
        rw [add_zero]; exact add0 L d1
      have q1 := le_pow_uu hl
      have q2 := le_pow_uu hm
      have a1 := abs_sum_le l fun a => f a * g a
      have a2 := abs_sum_le m fun a => f a * g a
      have hp := part _ hs
      have b1 := size l L e1
      have b2 := size m M e2
      have l0 : 0 ≤ (l.length : ℝ) * ee := by positivity
      have m0 : 0 ≤ (m.length : ℝ) * ee := by positivity
      have hu := uu_pos
      simp only [List.map_append, List.sum_append, List.length_append, pow_add, Nat.cast_add, add_mul] at hp ⊢
      have hov : |L + M| ≤ big := by
        refine (abs_add_le _ _).trans ((add_le_add b1 b2).trans (le_trans ?_ hp))
        have s1 := (abs_nonneg _).trans a1
        have s2 := (abs_nonneg _).trans a2
        generalize (1 + uu) ^ l.length = p at *
        generalize (1 + uu) ^ m.length = q at *
        generalize (l.map fun a => |f a * g a|).sum = S at *
        generalize (m.map fun a => |f a * g a|).sum = T at *
        have c1 : p ≤ p * q := by nlinarith
        have c2 : q ≤ p * q := by nlinarith
        have := mul_le_mul_of_nonneg_left c1 s1
        have := mul_le_mul_of_nonneg_left c2 s2
        have := mul_le_mul_of_nonneg_left c1 l0
        have := mul_le_mul_of_nonneg_left c2 m0
        linarith
      obtain ⟨z, hz, dz, ez⟩ := add_err (ω := ω) d1 d2 hov
      refine ⟨z, dz, hz, fun h => absurd (List.append_eq_nil_iff.1 h).1 hl, ?_⟩
      have := node_bound q1 q2 l0 m0 a1 a2 e1 e2 ez
      rwa [add_mul] at this)
  obtain ⟨L, h1, h2, -, h3⟩ := h
  refine ⟨L, h1, h2, ?_⟩
  rw [(hl.map fun a => f a * g a).sum_eq, (hl.map fun a => |f a * g a|).sum_eq, hl.length_eq] at h3
  refine h3.trans ?_
  have s0 : 0 ≤ (as.map fun a => |f a * g a|).sum := (abs_nonneg _).trans (abs_sum_le as fun a => f a * g a)
  have l0 : 0 ≤ (as.length : ℝ) * ee := by positivity
  have n0 : 0 ≤ (as.length : ℝ) * uu := mul_nonneg (Nat.cast_nonneg _) uu_pos.le
  have hu := uu_pos
  generalize (1 + uu) ^ as.length = q at *
  generalize (as.map fun a => |f a * g a|).sum = S at *
  generalize (as.length : ℝ) * ee = n at *
  generalize (as.length : ℝ) * uu = k at *
  have c1 := mul_le_mul_of_nonneg_right p1 s0
  have c2 := mul_le_mul_of_nonneg_left p2 l0
  have c3 := mul_nonneg n0 s0
  have c4 := mul_nonneg hu.le s0
  nlinarith

/-- Absolute error of norms near zero. -/
noncomputable def kk : ℝ := 2 ^ (-500 : ℤ)

theorem n_uu {n : Nat} (h : n ≤ 2 ^ 50) : (n : ℝ) * uu ≤ 1 / 8 := by
  have h1 : (n : ℝ) ≤ 2 ^ (50 : ℤ) := by exact_mod_cast h
  calc (n : ℝ) * uu ≤ 2 ^ (50 : ℤ) * uu := mul_le_mul_of_nonneg_right h1 uu_pos.le
    _ = 1 / 8 := by rw [uu, ← zpow_add₀ two_ne_zero]; norm_num

theorem uu_le : uu ≤ 1 / 1000 := by
  calc uu ≤ 2 ^ (-10 : ℤ) := zpow_le_zpow_right₀ one_le_two (by norm_num)
    _ ≤ 1 / 1000 := by norm_num

theorem ee_le_kk : ee ≤ kk / 1000 := by
  have h1 : ee ≤ 2 ^ (-10 : ℤ) * 2 ^ (-500 : ℤ) := by
    rw [← zpow_add₀ two_ne_zero]; exact zpow_le_zpow_right₀ one_le_two (by norm_num)
  have h2 : (2 : ℝ) ^ (-10 : ℤ) * 2 ^ (-500 : ℤ) ≤ (1 / 1000) * 2 ^ (-500 : ℤ) :=
    mul_le_mul_of_nonneg_right (by norm_num) (two_zpow_pos _).le
  have := h1.trans h2
  rw [kk]
  linarith

theorem n_ee {n : Nat} (h : n ≤ 2 ^ 50) : 2 * ((n : ℝ) * ee) ≤ 2 ^ (-1024 : ℤ) := by
  have h1 : (n : ℝ) ≤ 2 ^ (50 : ℤ) := by exact_mod_cast h
  have h2 : (n : ℝ) * ee ≤ 2 ^ (50 : ℤ) * ee := mul_le_mul_of_nonneg_right h1 ee_pos.le
  have h3 : 2 * ((2 : ℝ) ^ (50 : ℤ) * ee) = 2 ^ (-1024 : ℤ) := by
    rw [ee, ← zpow_add₀ two_ne_zero, mul_comm, ← zpow_add_one₀ two_ne_zero]; norm_num
  rw [← h3]
  exact mul_le_mul_of_nonneg_left h2 zero_le_two

theorem sqrt_n_ee {n : Nat} (h : n ≤ 2 ^ 50) : Real.sqrt (2 * ((n : ℝ) * ee)) ≤ kk / 1000 := by
  have h1 : Real.sqrt (2 * ((n : ℝ) * ee)) ≤ 2 ^ (-512 : ℤ) := by
    rw [Real.sqrt_le_left (two_zpow_pos _).le, ← zpow_natCast, ← zpow_mul]
    exact n_ee h
  refine h1.trans ?_
  have e : (2 : ℝ) ^ (-512 : ℤ) = 2 ^ (-12 : ℤ) * 2 ^ (-500 : ℤ) := by
    rw [← zpow_add₀ two_ne_zero]; norm_num
  have h2 : (2 : ℝ) ^ (-12 : ℤ) * 2 ^ (-500 : ℤ) ≤ (1 / 1000) * 2 ^ (-500 : ℤ) :=
    mul_le_mul_of_nonneg_right (by norm_num) (two_zpow_pos _).le
  rw [e, kk]
  linarith

/-- Norms. -/
theorem norm_err {A : Type} (as : List A) (hn : as.length ≤ 2 ^ 50) (f : A → ℝ) (hf : ∀ a ∈ as, |f a| ≤ 2 ^ (402 : ℤ)) :
    ∃ N, 0 ≤ N ∧ IsDouble N ∧ (norm2 (as.map fun a => FP.fin (f a)) : FP (.binary64 ω)) = FP.fin N ∧
      |N - Real.sqrt (as.map fun a => f a ^ 2).sum| ≤ (4 * (as.length * uu) + 3 * uu) * Real.sqrt (as.map fun a => f a ^ 2).sum + kk ∧
      ((∀ a ∈ as, f a = 0) → N = 0) := by
  obtain ⟨T, hT, h1, h2⟩ := dot_err as hn f f hf hf
  have e1 : (as.map fun a => f a * f a) = as.map fun a => f a ^ 2 := List.map_congr_left fun a _ => by ring
  have e2 : (as.map fun a => |f a * f a|) = as.map fun a => f a ^ 2 := List.map_congr_left fun a _ => by
    rw [abs_mul_self]; ring
  rw [e1, e2] at h2
  have S0 : 0 ≤ (as.map fun a => f a ^ 2).sum := List.sum_nonneg (by
    intro x hx; obtain ⟨a, -, rfl⟩ := List.mem_map.1 hx; exact sq_nonneg _)
  have T0 : 0 ≤ T := by
    have key : ∀ x : FP (.binary64 ω), (Arith.dot (as.map fun a => FP.fin (f a)) (as.map fun a => FP.fin (f a)) : FP (.binary64 ω)) = x → NN x := by
      intro x hx
      rw [← hx]
      obtain ⟨-, -, h⟩ := dot_order_fp (R := .binary64 ω) as (fun a => FP.fin (f a)) (fun a => FP.fin (f a)) (fun _ x => NN x)
        (fun _ => (nr_zero (R := .binary64 ω)).nn) (fun a _ => nn_sq (FNum.fin (f a)))
        (fun a l y _ hy => nn_add (nn_sq (R := .exact) (FNum.fin (f a))) hy) (fun _ _ _ _ _ hx hy => nn_add hx hy)
      exact h
    cases key _ h1 with
    | fin y h => exact h
  have zero : (∀ a ∈ as, f a = 0) → T = 0 := by
    intro hz
    have : (Arith.dot (as.map fun a => FP.fin (f a)) (as.map fun a => FP.fin (f a)) : FP (.binary64 ω)) = FP.fin 0 := by
      obtain ⟨l, hl, h⟩ := dot_order_fp (R := .binary64 ω) as (fun a => FP.fin (f a)) (fun a => FP.fin (f a))
        (fun _ x => x = FP.fin 0) (fun _ => rfl)
        (fun a ha => by
          show (Rounding.binary64 ω).rnd (f a * f a) = _
          rw [hz a ha, mul_zero]; exact Rounding.zero _)
        (fun a l y hs hy => by
          subst hy
          show (Rounding.binary64 ω).rnd (f a * f a + 0) = _
          rw [hz a (hs.subset (by simp)), mul_zero, add_zero]; exact Rounding.zero _)
        (fun l m x y _ hx hy => by
          subst hx hy
          show (Rounding.binary64 ω).rnd (0 + 0) = _
          rw [add_zero]; exact Rounding.zero _)
      exact h
    rw [h1] at this
    exact FP.fin_inj.1 this
  have hs := sqrt_err S0 T0 (g := 4 * (as.length * uu) + uu) (t := 2 * (as.length * ee))
    (add_nonneg (mul_nonneg (by norm_num) (mul_nonneg (Nat.cast_nonneg _) uu_pos.le)) uu_pos.le)
    (mul_nonneg (by norm_num) (mul_nonneg (Nat.cast_nonneg _) ee_pos.le)) h2
  have hk := sqrt_n_ee hn
  have k0 := Real.sqrt_nonneg (2 * ((as.length : ℝ) * ee))
  have hnu := n_uu hn
  have n0 : 0 ≤ (as.length : ℝ) * uu := mul_nonneg (Nat.cast_nonneg _) uu_pos.le
  have hu := uu_le
  have u0 := uu_pos
  have s0 := Real.sqrt_nonneg (as.map fun a => f a ^ 2).sum
  have r0 := Real.sqrt_nonneg T
  have hB : |Real.sqrt T| ≤ big := by
    rw [abs_of_nonneg r0]
    have hb : (as.map fun a => f a ^ 2).sum ≤ (2 ^ (427 : ℤ)) ^ 2 := by
      have := no_overflow as hn (fun _ => 0) (by intro a _; rw [abs_zero]; exact (two_zpow_pos _).le) (t := 1) le_rfl
      have h5 : (as.map fun a => f a ^ 2).sum ≤ as.length * 2 ^ (804 : ℤ) := by
        rw [← sum_map_const]
        refine sum_map_le fun a ha => ?_
        calc f a ^ 2 = |f a| ^ 2 := (sq_abs _).symm
          _ ≤ (2 ^ (402 : ℤ)) ^ 2 := pow_le_pow_left₀ (abs_nonneg _) (hf a ha) 2
          _ = 2 ^ (804 : ℤ) := by rw [← zpow_natCast, ← zpow_mul]; norm_num
      refine h5.trans ?_
      have hn' : (as.length : ℝ) ≤ 2 ^ (50 : ℤ) := by exact_mod_cast hn
      calc (as.length : ℝ) * 2 ^ (804 : ℤ) ≤ 2 ^ (50 : ℤ) * 2 ^ (804 : ℤ) := mul_le_mul_of_nonneg_right hn' (two_zpow_pos _).le
        _ = (2 ^ (427 : ℤ)) ^ 2 := by rw [← zpow_add₀ two_ne_zero, ← zpow_natCast, ← zpow_mul]; norm_num
    have hb' : Real.sqrt (as.map fun a => f a ^ 2).sum ≤ 2 ^ (427 : ℤ) := by
      rw [Real.sqrt_le_left (two_zpow_pos _).le]; exact hb
    have k1 : kk ≤ 1 := zpow_le_one_of_nonpos₀ one_le_two (by norm_num)
    have h6 : (2 : ℝ) ^ (427 : ℤ) * 4 ≤ big := by
      rw [show (4 : ℝ) = 2 ^ (2 : ℤ) by norm_num, ← zpow_add₀ two_ne_zero]; exact le_big (by norm_num)
    have h7 : (1 : ℝ) ≤ 2 ^ (427 : ℤ) := one_le_zpow₀ one_le_two (by norm_num)
    clear hb
    generalize (2 : ℝ) ^ (427 : ℤ) = B at *
    have := (abs_le.1 hs).2
    nlinarith
  obtain ⟨N, hN, hd, hr, -⟩ := round_err hB
  have e3 : (norm2 (as.map fun a => FP.fin (f a)) : FP (.binary64 ω)) = FP.fin N := by
    unfold norm2
    rw [h1]
    show FNum.sqrt (.binary64 ω) (.fin T) = .fin N
    rw [FNum.sqrt, if_neg (not_lt.2 T0)]
    exact hN
  refine ⟨N, ?_, hd, e3, ?_, ?_⟩
  · have := nn_rnd (R := .binary64 ω) r0
    rw [hN] at this
    cases this with
    | fin y h => exact h
  · rw [abs_of_nonneg r0] at hr
    have tri : |N - Real.sqrt (as.map fun a => f a ^ 2).sum| ≤ |N - Real.sqrt T| + |Real.sqrt T - Real.sqrt (as.map fun a => f a ^ 2).sum| :=
      abs_sub_le _ _ _
    have hek := ee_le_kk
    have k1 : 0 < kk := two_zpow_pos _
    have up := (abs_le.1 hs).2
    generalize Real.sqrt (as.map fun a => f a ^ 2).sum = s at *
    generalize Real.sqrt T = r at *
    generalize Real.sqrt (2 * ((as.length : ℝ) * ee)) = τ at *
    generalize (as.length : ℝ) * uu = n at *
    have h8 : r ≤ 2 * s + τ := by nlinarith
    have h9 : uu * r ≤ uu * (2 * s + τ) := mul_le_mul_of_nonneg_left h8 u0.le
    have h10 : uu * τ ≤ τ := by nlinarith
    nlinarith
  · intro hz
    have : Real.sqrt T = 0 := by rw [zero hz, Real.sqrt_zero]
    rw [this, Rounding.zero] at hN
    exact (FNum.fin.inj hN).symm

end TD
