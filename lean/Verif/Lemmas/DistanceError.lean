import Verif.Lemmas.RoundError
/-! Rounding errors of the distance measures. -/

namespace TD
open Spec Double

variable {A : Type}

/-- The distance measures, over a list of indices. -/
theorem sub_err {x y : ℝ} (hx : IsDouble x) (hy : IsDouble y) (h1 : |x| ≤ 2 ^ (400 : ℤ)) (h2 : |y| ≤ 2 ^ (400 : ℤ)) :
    ∃ d, (FP.fin x -. FP.fin y : FP (.binary64 ω)) = FP.fin d ∧ IsDouble d ∧ |d - (x - y)| ≤ uu * |x - y| ∧
      |d| ≤ 2 ^ (402 : ℤ) ∧ |x - y| ≤ 2 ^ (402 : ℤ) := by
  have e4 : (2 : ℝ) ^ (402 : ℤ) = 2 ^ (400 : ℤ) * 4 := by
    rw [show (4 : ℝ) = 2 ^ (2 : ℤ) by norm_num, ← zpow_add₀ two_ne_zero]; norm_num
  have p : (0 : ℝ) < 2 ^ (400 : ℤ) := two_zpow_pos _
  have hb : |x - y| ≤ 2 ^ (400 : ℤ) * 2 := by
    have := abs_sub x y
    rw [mul_two]
    exact this.trans (add_le_add h1 h2)
  have hB : |x + -y| ≤ big := by
    rw [← sub_eq_add_neg]
    refine hb.trans ?_
    rw [← zpow_add_one₀ two_ne_zero]; exact le_big (by norm_num)
  obtain ⟨d, h3, h4, h5⟩ := add_err (ω := ω) hx hy.neg hB
  rw [← sub_eq_add_neg] at h3 h5
  refine ⟨d, h3, h4, h5, ?_, ?_⟩
  · rw [e4]
    have t : |d| ≤ |d - (x - y)| + |x - y| := by
      have := abs_add_le (d - (x - y)) (x - y)
      rwa [sub_add_cancel] at this
    have : uu * |x - y| ≤ 1 * |x - y| := mul_le_mul_of_nonneg_right (uu_le.trans (by norm_num)) (abs_nonneg _)
    clear h1 h2 e4 hB
    generalize (2 : ℝ) ^ (400 : ℤ) = B at *
    linarith
  · rw [e4]
    clear h1 h2 e4 hB
    generalize (2 : ℝ) ^ (400 : ℤ) = B at *
    linarith

/-- The rounded differences. -/
theorem diffs_err (as : List A) (v w : A → ℝ) (hv : ∀ a ∈ as, IsDouble (v a) ∧ |v a| ≤ 2 ^ (400 : ℤ))
    (hw : ∀ a ∈ as, IsDouble (w a) ∧ |w a| ≤ 2 ^ (400 : ℤ)) :
    ∃ d : A → ℝ, (vzip Arith.sub (as.map fun a => FP.fin (v a)) (as.map fun a => FP.fin (w a)) : Vec (FP (.binary64 ω))) =
        as.map (fun a => FP.fin (d a)) ∧
      ∀ a ∈ as, IsDouble (d a) ∧ |d a - (v a - w a)| ≤ uu * |v a - w a| ∧ |d a| ≤ 2 ^ (402 : ℤ) ∧ |v a - w a| ≤ 2 ^ (402 : ℤ) := by
  have hex : ∀ a, ∃ y, a ∈ as → (FP.fin (v a) -. FP.fin (w a) : FP (.binary64 ω)) = FP.fin y ∧ IsDouble y ∧
      |y - (v a - w a)| ≤ uu * |v a - w a| ∧ |y| ≤ 2 ^ (402 : ℤ) ∧ |v a - w a| ≤ 2 ^ (402 : ℤ) := by
    intro a
    by_cases ha : a ∈ as
    · obtain ⟨y, h⟩ := sub_err (ω := ω) (hv a ha).1 (hw a ha).1 (hv a ha).2 (hw a ha).2
      exact ⟨y, fun _ => h⟩
    · exact ⟨0, fun h => absurd h ha⟩
  choose d hd using hex
  refine ⟨d, ?_, fun a ha => (hd a ha).2⟩
  unfold vzip
  rw [List.zipWith_map, List.zipWith_self]
  exact List.map_congr_left fun a ha => (hd a ha).1

theorem l1_err (as : List A) (hn : as.length ≤ 2 ^ 50) (v w : A → ℝ) (hv : ∀ a ∈ as, IsDouble (v a) ∧ |v a| ≤ 2 ^ (400 : ℤ))
    (hw : ∀ a ∈ as, IsDouble (w a) ∧ |w a| ≤ 2 ^ (400 : ℤ)) :
    ∃ x, getDistance (α := FP (.binary64 ω)) (some .l1) (as.map fun a => FP.fin (v a)) (as.map fun a => FP.fin (w a)) = .ok (FP.fin x) ∧
      |x - (as.map fun a => |v a - w a|).sum| ≤ (4 * (as.length * uu) + uu) * (as.map fun a => |v a - w a|).sum := by
  obtain ⟨d, h1, h2⟩ := diffs_err (ω := ω) as v w hv hw
  have e804 : (2 : ℝ) ^ (402 : ℤ) ≤ 2 ^ (804 : ℤ) := zpow_le_zpow_right₀ one_le_two (by norm_num)
  obtain ⟨L, -, h3, h4⟩ := sum_err' (ω := ω) as hn (fun a => |d a|) (fun a => |v a - w a|) uu 0 uu_pos.le (uu_le.trans (by norm_num)) le_rfl
    (fun a ha => isDouble_abs (h2 a ha).1)
    (fun a ha => by
      rw [abs_abs, add_zero]
      exact (abs_abs_sub_abs_le _ _).trans (h2 a ha).2.1)
    (no_overflow as hn _ (fun a ha => by rw [abs_abs]; exact (h2 a ha).2.2.2.trans e804) zero_le_one)
  refine ⟨L, ?_, by simpa [abs_abs] using h4⟩
  simp only [getDistance]
  rw [h1, ← h3, List.map_map]
  rfl

theorem norm_diff {as : List A} {d x : A → ℝ} (h : ∀ a ∈ as, |d a - x a| ≤ uu * |x a|) :
    |Real.sqrt (as.map fun a => d a ^ 2).sum - Real.sqrt (as.map fun a => x a ^ 2).sum| ≤
      3 * uu * Real.sqrt (as.map fun a => x a ^ 2).sum := by
  have nn : ∀ f : A → ℝ, 0 ≤ (as.map fun a => f a ^ 2).sum := fun f => List.sum_nonneg (by
    intro y hy; obtain ⟨a, -, rfl⟩ := List.mem_map.1 hy; exact sq_nonneg _)
  have := sqrt_err (nn x) (nn d) (g := 3 * uu) (t := 0) (by linarith [uu_pos]) le_rfl (by
    rw [add_zero, ← sum_map_mul]
    refine (sum_map_abs_sub as _ _).trans (sum_map_le fun a ha => ?_)
    have h1 := h a ha
    have h2 : d a ^ 2 - x a ^ 2 = (d a - x a) * (d a - x a + 2 * x a) := by ring
    rw [h2, abs_mul]
    have h3 : |d a - x a + 2 * x a| ≤ 3 * |x a| := by
      have t := abs_add_le (d a - x a) (2 * x a)
      rw [abs_mul, abs_of_pos (zero_lt_two (α := ℝ))] at t
      have := mul_le_mul_of_nonneg_right (uu_le.trans (by norm_num : (1 : ℝ) / 1000 ≤ 1)) (abs_nonneg (x a))
      linarith
    calc |d a - x a| * |d a - x a + 2 * x a| ≤ (uu * |x a|) * (3 * |x a|) :=
          mul_le_mul h1 h3 (abs_nonneg _) (mul_nonneg uu_pos.le (abs_nonneg _))
      _ = 3 * uu * (|x a| ^ 2) := by ring
      _ = 3 * uu * x a ^ 2 := by rw [sq_abs])
  rwa [Real.sqrt_zero, add_zero] at this

theorem l2_err (as : List A) (hn : as.length ≤ 2 ^ 50) (v w : A → ℝ) (hv : ∀ a ∈ as, IsDouble (v a) ∧ |v a| ≤ 2 ^ (400 : ℤ))
    (hw : ∀ a ∈ as, IsDouble (w a) ∧ |w a| ≤ 2 ^ (400 : ℤ)) :
    ∃ x, getDistance (α := FP (.binary64 ω)) (some .l2) (as.map fun a => FP.fin (v a)) (as.map fun a => FP.fin (w a)) = .ok (FP.fin x) ∧
      |x - Real.sqrt (as.map fun a => (v a - w a) ^ 2).sum| ≤
        (4 * (as.length * uu) + 8 * uu) * Real.sqrt (as.map fun a => (v a - w a) ^ 2).sum + kk := by
  obtain ⟨d, h1, h2⟩ := diffs_err (ω := ω) as v w hv hw
  obtain ⟨N, -, -, h3, h4, -⟩ := norm_err (ω := ω) as hn d fun a ha => (h2 a ha).2.2.1
  have h5 := norm_diff (as := as) (d := d) (x := fun a => v a - w a) fun a ha => (h2 a ha).2.1
  refine ⟨N, ?_, ?_⟩
  · simp only [getDistance]
    rw [h1, h3]
  · have tri := abs_sub_le N (Real.sqrt (as.map fun a => d a ^ 2).sum) (Real.sqrt (as.map fun a => (v a - w a) ^ 2).sum)
    have s0 := Real.sqrt_nonneg (as.map fun a => (v a - w a) ^ 2).sum
    have hnu := n_uu hn
    have n0 : 0 ≤ (as.length : ℝ) * uu := mul_nonneg (Nat.cast_nonneg _) uu_pos.le
    have hu := uu_le
    have u0 := uu_pos
    have up := (abs_le.1 h5).2
    generalize Real.sqrt (as.map fun a => (v a - w a) ^ 2).sum = s at *
    generalize Real.sqrt (as.map fun a => d a ^ 2).sum = r at *
    generalize (as.length : ℝ) * uu = n at *
    have a1 : (4 * n + 3 * uu) * r ≤ (4 * n + 3 * uu) * (s + 3 * uu * s) := mul_le_mul_of_nonneg_left (by linarith) (by linarith)
    have a2 : (4 * n + 3 * uu) * (3 * uu * s) ≤ (2 / 3) * (3 * uu * s) := mul_le_mul_of_nonneg_right (by linarith) (by positivity)
    nlinarith

theorem lInf_err (as : List A) (hne : as ≠ []) (v w : A → ℝ) (hv : ∀ a ∈ as, IsDouble (v a) ∧ |v a| ≤ 2 ^ (400 : ℤ))
    (hw : ∀ a ∈ as, IsDouble (w a) ∧ |w a| ≤ 2 ^ (400 : ℤ)) (D : ℝ) (hD : ∃ a ∈ as, D = |v a - w a|) (hD' : ∀ a ∈ as, |v a - w a| ≤ D) :
    ∃ x, getDistance (α := FP (.binary64 ω)) (some .lInf) (as.map fun a => FP.fin (v a)) (as.map fun a => FP.fin (w a)) = .ok (FP.fin x) ∧
      |x - D| ≤ uu * D := by
  obtain ⟨d, h1, h2⟩ := diffs_err (ω := ω) as v w hv hw
  have h3 : getDistance (α := FP (.binary64 ω)) (some .lInf) (as.map fun a => FP.fin (v a)) (as.map fun a => FP.fin (w a)) =
      npMax (as.map fun a => (FP.fin (|d a|) : FP (.binary64 ω))) := by
    simp only [getDistance]
    rw [h1, List.map_map]
    rfl
  classical
  obtain ⟨b, hb, h4, h5⟩ := pyMax_fp (R := .binary64 ω) hne fun a => |d a|
  rw [npMax_fp, h4] at h3
  refine ⟨_, h3, ?_⟩
  have key : ∀ a ∈ as, |(|d a|) - (|v a - w a|)| ≤ uu * |v a - w a| := fun a ha => (abs_abs_sub_abs_le _ _).trans (h2 a ha).2.1
  obtain ⟨c, hc, rfl⟩ := hD
  have k1 := abs_le.1 (key b hb)
  have k2 := abs_le.1 (key c hc)
  have k3 := h5 c hc
  have k4 := hD' b hb
  have k5 : uu * |v b - w b| ≤ uu * |v c - w c| := mul_le_mul_of_nonneg_left k4 uu_pos.le
  rw [abs_le]
  constructor <;> linarith [k1.1, k1.2, k2.1, k2.2]

/-- Cauchy-Schwarz for lists. -/
theorem cauchy (as : List A) (v w : A → ℝ) : (as.map fun a => |v a * w a|).sum ≤
    Real.sqrt (as.map fun a => v a ^ 2).sum * Real.sqrt (as.map fun a => w a ^ 2).sum := by
  have nn : ∀ (as : List A) (f : A → ℝ), 0 ≤ (as.map fun a => f a ^ 2).sum := fun as f => List.sum_nonneg (by
    intro y hy; obtain ⟨a, -, rfl⟩ := List.mem_map.1 hy; exact sq_nonneg _)
  induction as with
  | nil => simp
  | cons a as ih =>
    simp only [List.map_cons, List.sum_cons]
    have hV := nn as v
    have hW := nn as w
    have e1 := Real.sq_sqrt hV
    have e2 := Real.sq_sqrt hW
    have n1 := Real.sqrt_nonneg (as.map fun a => v a ^ 2).sum
    have n2 := Real.sqrt_nonneg (as.map fun a => w a ^ 2).sum
    rw [← Real.sqrt_mul (by positivity)]
    refine (add_le_add le_rfl ih).trans (Real.le_sqrt_of_sq_le ?_)
    rw [abs_mul]
    have e3 := sq_abs (v a)
    have e4 := sq_abs (w a)
    generalize |v a| = x at *
    generalize |w a| = y at *
    generalize Real.sqrt (as.map fun a => v a ^ 2).sum = p at *
    generalize Real.sqrt (as.map fun a => w a ^ 2).sum = q at *
    rw [← e1, ← e2, ← e3, ← e4]
    nlinarith [sq_nonneg (x * q - y * p)]

theorem clamp_lipschitz (x y : ℝ) : |clamp x - clamp y| ≤ |x - y| := by
  have h1 : |max 0 (min 1 x) - max 0 (min 1 y)| ≤ |min 1 x - min 1 y| := by
    have := abs_max_sub_max_le_abs (min 1 x) (min 1 y) 0
    rwa [max_comm _ (0 : ℝ), max_comm _ (0 : ℝ)] at this
  have h2 : |min 1 x - min 1 y| ≤ |x - y| := by
    have := abs_min_sub_min_le_max 1 x 1 y
    simpa using this
  exact h1.trans h2

theorem clip01_fp {R : Rounding} (x : ℝ) : (clip01 (FP.fin x) : FP R) = FP.fin (clamp x) := by
  unfold clip01 clamp
  rw [FP.zero_eq, FP.one_eq, FP.lt_fin, FP.lt_fin]
  simp only [decide_eq_true_eq]
  split_ifs with h1 h2
  · rw [min_eq_right (by linarith), max_eq_left h1.le]
  · rw [min_eq_left h2.le, max_eq_right (by norm_num)]
  · rw [min_eq_right (by linarith), max_eq_right (by linarith)]

theorem eq_fin_zero {R : Rounding} (x : ℝ) : Arith.eq (FP.fin x : FP R) (Arith.ofNat 0) = decide (x = 0) := by
  rw [FP.zero_eq]
  show FNum.eq (.fin x) (.fin 0) = _
  simp [FNum.eq, FNum.toEReal]

/-- The real inequality behind the error of the cosine distance. -/
theorem quotient_err {a b N1 N2 P T s n u : ℝ} (ha : 0 < a) (hb : 0 < b) (hu : 0 < u) (hn : 0 ≤ n) (hn1 : 4 * n + 4 * u ≤ 1 / 100)
    (h1 : |N1 - a| ≤ (4 * n + 4 * u) * a) (h2 : |N2 - b| ≤ (4 * n + 4 * u) * b) (hP : |P - N1 * N2| ≤ u * (N1 * N2) + u * (a * b))
    (hT : |T - s| ≤ (4 * n + 2 * u) * (a * b)) (hs : |s| ≤ a * b) :
    a * b / 2 ≤ P ∧ |T / P - s / (a * b)| ≤ 32 * n + 38 * u := by
  have hab : 0 < a * b := mul_pos ha hb
  set h := 4 * n + 4 * u with hh
  have h0 : 0 < h := by linarith
  have hprod : |N1 * N2 - a * b| ≤ (2 * h + h ^ 2) * (a * b) := by
    have e : N1 * N2 - a * b = (N1 - a) * (N2 - b) + a * (N2 - b) + b * (N1 - a) := by ring
    rw [e]
    have t := abs_add_three ((N1 - a) * (N2 - b)) (a * (N2 - b)) (b * (N1 - a))
    rw [abs_mul, abs_mul, abs_mul, abs_of_pos ha, abs_of_pos hb] at t
    have m1 : |N1 - a| * |N2 - b| ≤ (h * a) * (h * b) := mul_le_mul h1 h2 (abs_nonneg _) (by positivity)
    have m2 : a * |N2 - b| ≤ a * (h * b) := mul_le_mul_of_nonneg_left h2 ha.le
    have m3 : b * |N1 - a| ≤ b * (h * a) := mul_le_mul_of_nonneg_left h1 hb.le
    calc _ ≤ _ := t
      _ ≤ (h * a) * (h * b) + a * (h * b) + b * (h * a) := by linarith
      _ = (2 * h + h ^ 2) * (a * b) := by ring
  have hh2 : h ^ 2 ≤ h / 100 := by nlinarith
  have hprod' : |N1 * N2 - a * b| ≤ (3 * h) * (a * b) :=
    hprod.trans (mul_le_mul_of_nonneg_right (by linarith) hab.le)
  generalize hN : N1 * N2 = N at *
  have hNup : N ≤ 2 * (a * b) := by
    have := (abs_le.1 hprod').2
    nlinarith
  have hPab : |P - a * b| ≤ (3 * h + 5 * u) * (a * b) := by
    have t := abs_sub_le P N (a * b)
    have : u * N ≤ u * (2 * (a * b)) := mul_le_mul_of_nonneg_left hNup hu.le
    nlinarith
  have hPlo : a * b / 2 ≤ P := by
    have := (abs_le.1 hPab).1
    have h5 : 3 * h + 5 * u ≤ 1 / 2 := by linarith
    have := mul_le_mul_of_nonneg_right h5 hab.le
    linarith
  refine ⟨hPlo, ?_⟩
  have hP0 : 0 < P := by linarith
  have e : T / P - s / (a * b) = ((T - s) - s / (a * b) * (P - a * b)) / P := by
    field_simp
    ring
  rw [e, abs_div, abs_of_pos hP0, div_le_iff₀ hP0]
  have hc : |s / (a * b)| ≤ 1 := by
    rw [abs_div, abs_of_pos hab, div_le_one hab]; exact hs
  have t : |(T - s) - s / (a * b) * (P - a * b)| ≤ |T - s| + |s / (a * b)| * |P - a * b| := by
    have := abs_sub (T - s) (s / (a * b) * (P - a * b))
    rwa [abs_mul] at this
  have m : |s / (a * b)| * |P - a * b| ≤ 1 * ((3 * h + 5 * u) * (a * b)) :=
    mul_le_mul hc hPab (abs_nonneg _) zero_le_one
  have fin : (4 * n + 2 * u) * (a * b) + (3 * h + 5 * u) * (a * b) = (16 * n + 19 * u) * (a * b) := by rw [hh]; ring
  have last : (16 * n + 19 * u) * (a * b) ≤ (32 * n + 38 * u) * P := by nlinarith
  linarith

theorem n_uu40 {n : Nat} (h : n ≤ 2 ^ 40) : 4 * ((n : ℝ) * uu) + 4 * uu ≤ 1 / 100 := by
  have h1 : (n : ℝ) ≤ 2 ^ (40 : ℤ) := by exact_mod_cast h
  have h2 : (n : ℝ) * uu ≤ 1 / 1000 := by
    calc (n : ℝ) * uu ≤ 2 ^ (40 : ℤ) * uu := mul_le_mul_of_nonneg_right h1 uu_pos.le
      _ = 2 ^ (-13 : ℤ) := by rw [uu, ← zpow_add₀ two_ne_zero]; norm_num
      _ ≤ 1 / 1000 := by norm_num
  have := uu_le
  clear h1
  linarith

theorem cosine_err (as : List A) (hn : as.length ≤ 2 ^ 40) (v w : A → ℝ)
    (hv : ∀ a ∈ as, |v a| ≤ 2 ^ (400 : ℤ)) (hw : ∀ a ∈ as, |w a| ≤ 2 ^ (400 : ℤ))
    (hv' : (2 : ℝ) ^ (-400 : ℤ) ≤ Real.sqrt (as.map fun a => v a ^ 2).sum)
    (hw' : (2 : ℝ) ^ (-400 : ℤ) ≤ Real.sqrt (as.map fun a => w a ^ 2).sum) :
    ∃ x, getDistance (α := FP (.binary64 ω)) (some .cosine) (as.map fun a => FP.fin (v a)) (as.map fun a => FP.fin (w a)) = .ok (FP.fin x) ∧
      |x - clamp (1 - (as.map fun a => v a * w a).sum /
        (Real.sqrt (as.map fun a => v a ^ 2).sum * Real.sqrt (as.map fun a => w a ^ 2).sum))| ≤ 32 * (as.length * uu) + 64 * uu := by
  have hn' : as.length ≤ 2 ^ 50 := by omega
  have e402 : (2 : ℝ) ^ (400 : ℤ) ≤ 2 ^ (402 : ℤ) := zpow_le_zpow_right₀ one_le_two (by norm_num)
  obtain ⟨N1, -, -, n1, d1, -⟩ := norm_err (ω := ω) as hn' v fun a ha => (hv a ha).trans e402
  obtain ⟨N2, -, -, n2, d2, -⟩ := norm_err (ω := ω) as hn' w fun a ha => (hw a ha).trans e402
  obtain ⟨T, -, t1, t2⟩ := dot_err (ω := ω) as hn' v w (fun a ha => (hv a ha).trans e402) fun a ha => (hw a ha).trans e402
  have cs := cauchy as v w
  have hup : ∀ f : A → ℝ, (∀ a ∈ as, |f a| ≤ 2 ^ (400 : ℤ)) → Real.sqrt (as.map fun a => f a ^ 2).sum ≤ 2 ^ (420 : ℤ) := by
    intro f hf
    rw [Real.sqrt_le_left (two_zpow_pos _).le]
    have h5 : (as.map fun a => f a ^ 2).sum ≤ as.length * 2 ^ (800 : ℤ) := by
      rw [← sum_map_const]
      refine sum_map_le fun a ha => ?_
      calc f a ^ 2 = |f a| ^ 2 := (sq_abs _).symm
        _ ≤ (2 ^ (400 : ℤ)) ^ 2 := pow_le_pow_left₀ (abs_nonneg _) (hf a ha) 2
        _ = 2 ^ (800 : ℤ) := by rw [← zpow_natCast, ← zpow_mul]; norm_num
    refine h5.trans ?_
    have hn' : (as.length : ℝ) ≤ 2 ^ (40 : ℤ) := by exact_mod_cast hn
    calc (as.length : ℝ) * 2 ^ (800 : ℤ) ≤ 2 ^ (40 : ℤ) * 2 ^ (800 : ℤ) := mul_le_mul_of_nonneg_right hn' (two_zpow_pos _).le
      _ = (2 ^ (420 : ℤ)) ^ 2 := by rw [← zpow_add₀ two_ne_zero, ← zpow_natCast, ← zpow_mul]; norm_num
  have upv := hup v hv
  have upw := hup w hw
  have hk : ∀ a : ℝ, (2 : ℝ) ^ (-400 : ℤ) ≤ a → kk ≤ uu * a := by
    intro a ha
    calc kk ≤ uu * 2 ^ (-400 : ℤ) := by
          rw [uu, ← zpow_add₀ two_ne_zero]; exact zpow_le_zpow_right₀ one_le_two (by norm_num)
      _ ≤ uu * a := mul_le_mul_of_nonneg_left ha uu_pos.le
  have habs : |(as.map fun a => v a * w a).sum| ≤ (as.map fun a => |v a * w a|).sum := by
    have := sum_map_abs_sub as (fun a => v a * w a) fun _ => 0
    simpa using this
  have kv := hk _ hv'
  have kw := hk _ hw'
  have p400 : (0 : ℝ) < 2 ^ (-400 : ℤ) := two_zpow_pos _
  have hab8 : (2 : ℝ) ^ (-800 : ℤ) ≤ Real.sqrt (as.map fun a => v a ^ 2).sum * Real.sqrt (as.map fun a => w a ^ 2).sum := by
    calc (2 : ℝ) ^ (-800 : ℤ) = 2 ^ (-400 : ℤ) * 2 ^ (-400 : ℤ) := by rw [← zpow_add₀ two_ne_zero]; norm_num
      _ ≤ _ := mul_le_mul hv' hw' p400.le (p400.le.trans hv')
  have hnu := n_uu40 hn
  have hee : 2 * ((as.length : ℝ) * ee) ≤ uu * (Real.sqrt (as.map fun a => v a ^ 2).sum * Real.sqrt (as.map fun a => w a ^ 2).sum) := by
    refine (n_ee hn').trans ?_
    calc (2 : ℝ) ^ (-1024 : ℤ) ≤ uu * 2 ^ (-800 : ℤ) := by
          rw [uu, ← zpow_add₀ two_ne_zero]; exact zpow_le_zpow_right₀ one_le_two (by norm_num)
      _ ≤ _ := mul_le_mul_of_nonneg_left hab8 uu_pos.le
  have hee' : ee ≤ uu * (Real.sqrt (as.map fun a => v a ^ 2).sum * Real.sqrt (as.map fun a => w a ^ 2).sum) := by
    calc ee ≤ uu * 2 ^ (-800 : ℤ) := by
          rw [uu, ← zpow_add₀ two_ne_zero]; exact zpow_le_zpow_right₀ one_le_two (by norm_num)
      _ ≤ _ := mul_le_mul_of_nonneg_left hab8 uu_pos.le
  have a0 : 0 < Real.sqrt (as.map fun a => v a ^ 2).sum := lt_of_lt_of_le p400 hv'
  have b0 : 0 < Real.sqrt (as.map fun a => w a ^ 2).sum := lt_of_lt_of_le p400 hw'
  have u0 := uu_pos
  have hu := uu_le
  have n0 : 0 ≤ (as.length : ℝ) * uu := mul_nonneg (Nat.cast_nonneg _) uu_pos.le
  have hbig : (2 : ℝ) ^ (420 : ℤ) * 2 ^ (420 : ℤ) * 4 ≤ big := by
    rw [show (4 : ℝ) = 2 ^ (2 : ℤ) by norm_num, ← zpow_add₀ two_ne_zero, ← zpow_add₀ two_ne_zero]; exact le_big (by norm_num)
  have p420 : (0 : ℝ) < 2 ^ (420 : ℤ) := two_zpow_pos _
  have big8 : 8 ≤ big := by
    rw [show (8 : ℝ) = 2 ^ (3 : ℤ) by norm_num]; exact le_big (by norm_num)
  have ee_uu : ee ≤ uu := zpow_le_zpow_right₀ one_le_two (by norm_num)
  clear hv hw e402 hup hv' hw' hk hab8 p400
  simp only [getDistance]
  rw [n1, n2, t1, eq_fin_zero, eq_fin_zero, FP.mul_fin]
  clear n1 n2 t1
  generalize (as.map fun a => v a * w a).sum = s at *
  generalize (as.map fun a => |v a * w a|).sum = s' at *
  generalize Real.sqrt (as.map fun a => v a ^ 2).sum = a at *
  generalize Real.sqrt (as.map fun a => w a ^ 2).sum = b at *
  generalize (2 : ℝ) ^ (420 : ℤ) = B at *
  generalize (as.length : ℝ) * uu = n at *
  generalize (as.length : ℝ) * ee = ne at *
  have d1' : |N1 - a| ≤ (4 * n + 4 * uu) * a := by linarith
  have d2' : |N2 - b| ≤ (4 * n + 4 * uu) * b := by linarith
  have r1 : 0 < N1 := by
    have := (abs_le.1 d1').1
    nlinarith
  have r2 : 0 < N2 := by
    have := (abs_le.1 d2').1
    nlinarith
  have q1 : N1 ≤ 2 * a := by
    have := (abs_le.1 d1').2
    nlinarith
  have q2 : N2 ≤ 2 * b := by
    have := (abs_le.1 d2').2
    nlinarith
  have hNN : |N1 * N2| ≤ big := by
    rw [abs_of_pos (mul_pos r1 r2)]
    calc N1 * N2 ≤ (2 * B) * (2 * B) := mul_le_mul (by linarith) (by linarith) r2.le (by linarith)
      _ = B * B * 4 := by ring
      _ ≤ big := hbig
  obtain ⟨P, p1, -, p2, -⟩ := round_err (ω := ω) hNN
  rw [abs_of_pos (mul_pos r1 r2)] at p2
  have hT : |T - s| ≤ (4 * n + 2 * uu) * (a * b) := by
    have : (4 * n + uu) * s' ≤ (4 * n + uu) * (a * b) := mul_le_mul_of_nonneg_left cs (by linarith)
    linarith
  obtain ⟨hP, hq⟩ := quotient_err a0 b0 u0 n0 hnu d1' d2' (by linarith) hT (habs.trans cs)
  have hab : 0 < a * b := mul_pos a0 b0
  have hP0 : 0 < P := by linarith
  have hc : |s / (a * b)| ≤ 1 := by
    rw [abs_div, abs_of_pos hab, div_le_one hab]; exact habs.trans cs
  have hTP : |T / P| ≤ 2 := by
    have t := abs_add_le (T / P - s / (a * b)) (s / (a * b))
    rw [sub_add_cancel] at t
    linarith
  obtain ⟨q, g1, -, g2, -⟩ := round_err (ω := ω) (x := T / P) (by linarith)
  have hqq : |q - T / P| ≤ 3 * uu := by
    have : uu * |T / P| ≤ uu * 2 := mul_le_mul_of_nonneg_left hTP u0.le
    linarith
  have hq1 : |q| ≤ 3 := by
    have t := abs_add_le (q - T / P) (T / P)
    rw [sub_add_cancel] at t
    linarith
  have h1q : |1 + -q| ≤ 4 := by
    have t := abs_add_le 1 (-q)
    rw [abs_neg, abs_one] at t
    linarith
  obtain ⟨z, z1, -, z2, -⟩ := round_err (ω := ω) (x := 1 + -q) (by linarith)
  refine ⟨clamp z, ?_, ?_⟩
  · rw [if_neg (by simp [r1.ne', r2.ne']), show (Rounding.binary64 ω).rnd (N1 * N2) = FP.fin P from p1,
      show (FP.fin T /. FP.fin P : FP (.binary64 ω)) = FP.fin q from by
        show FNum.div (.binary64 ω) (.fin T) (.fin P) = .fin q
        rw [FNum.div, if_neg hP0.ne']
        exact g1, FP.one_eq,
      show (FP.fin 1 -. FP.fin q : FP (.binary64 ω)) = FP.fin z from z1, clip01_fp]
  · refine (clamp_lipschitz _ _).trans ?_
    have t := abs_add_three (z - (1 + -q)) (T / P - q) (s / (a * b) - T / P)
    rw [show z - (1 + -q) + (T / P - q) + (s / (a * b) - T / P) = z - (1 - s / (a * b)) by ring, abs_sub_comm (T / P) q,
      abs_sub_comm (s / (a * b))] at t
    have : uu * |1 + -q| ≤ uu * 4 := mul_le_mul_of_nonneg_left h1q u0.le
    linarith

end TD
