import Verif.Props.Precision
import Verif.Props.DistanceDouble
/-!
# The cosine distance of trust scores that are known up to a small error
-/

namespace TD
open Spec Double
attribute [-instance] instBEqProd
variable {S V X : Type} [DecidableEq S] [DecidableEq V] [DecidableEq X] {ω : Platform}

theorem len2_le_sum {A : Type} (F : Finset A) (v : A → ℝ) : len2 F v ≤ ∑ a ∈ F, |v a| := by
  have h0 : 0 ≤ ∑ a ∈ F, |v a| := Finset.sum_nonneg fun _ _ => abs_nonneg _
  refine Real.sqrt_le_iff.2 ⟨h0, ?_⟩
  have : ∑ a ∈ F, v a ^ 2 = ∑ a ∈ F, |v a| ^ 2 := Finset.sum_congr rfl fun a _ => (sq_abs _).symm
  rw [this]
  exact Finset.sum_sq_le_sq_sum_of_nonneg fun _ _ => abs_nonneg _

theorem len2_add_le {A : Type} (F : Finset A) (u v : A → ℝ) : len2 F (fun a => u a + v a) ≤ len2 F u + len2 F v := by
  have hu : 0 ≤ ∑ a ∈ F, u a ^ 2 := Finset.sum_nonneg fun _ _ => sq_nonneg _
  have hv : 0 ≤ ∑ a ∈ F, v a ^ 2 := Finset.sum_nonneg fun _ _ => sq_nonneg _
  have h0 : 0 ≤ len2 F u + len2 F v := add_nonneg (Real.sqrt_nonneg _) (Real.sqrt_nonneg _)
  refine Real.sqrt_le_iff.2 ⟨h0, ?_⟩
  have cs : ∑ a ∈ F, u a * v a ≤ len2 F u * len2 F v := by
    unfold len2
    rw [← Real.sqrt_mul hu]
    exact Real.le_sqrt_of_sq_le (Finset.sum_mul_sq_le_sq_mul_sq F u v)
  have e1 : len2 F u ^ 2 = ∑ a ∈ F, u a ^ 2 := Real.sq_sqrt hu
  have e2 : len2 F v ^ 2 = ∑ a ∈ F, v a ^ 2 := Real.sq_sqrt hv
  have e3 : ∑ a ∈ F, (u a + v a) ^ 2 = ∑ a ∈ F, u a ^ 2 + 2 * ∑ a ∈ F, u a * v a + ∑ a ∈ F, v a ^ 2 := by
    rw [Finset.mul_sum, ← Finset.sum_add_distrib, ← Finset.sum_add_distrib]
    exact Finset.sum_congr rfl fun a _ => by ring
  rw [e3, ← e1, ← e2]
  nlinarith

theorem inner_le {A : Type} (F : Finset A) (u v : A → ℝ) : |∑ a ∈ F, u a * v a| ≤ len2 F u * len2 F v := by
  have hu : 0 ≤ ∑ a ∈ F, u a ^ 2 := Finset.sum_nonneg fun _ _ => sq_nonneg _
  unfold len2
  rw [← Real.sqrt_mul hu, ← Real.sqrt_sq_eq_abs]
  exact Real.sqrt_le_sqrt (Finset.sum_mul_sq_le_sq_mul_sq F u v)

theorem len2_nonneg {A : Type} (F : Finset A) (u : A → ℝ) : 0 ≤ len2 F u := Real.sqrt_nonneg _

theorem len2_scale {A : Type} (F : Finset A) (c : ℝ) (u : A → ℝ) : len2 F (fun a => c * u a) = |c| * len2 F u := by
  unfold len2
  have : ∑ a ∈ F, (c * u a) ^ 2 = c ^ 2 * ∑ a ∈ F, u a ^ 2 := by
    rw [Finset.mul_sum]; exact Finset.sum_congr rfl fun a _ => by ring
  rw [this, Real.sqrt_mul (sq_nonneg _), Real.sqrt_sq_eq_abs]

/-- Directions of long vectors that are close. -/
theorem direction_le {A : Type} (F : Finset A) {v v' : A → ℝ} (h : 0 < len2 F v) (h' : 0 < len2 F v') :
    len2 F (fun a => v a / len2 F v - v' a / len2 F v') ≤ 2 * len2 F (fun a => v a - v' a) / len2 F v := by
  have e : (fun a => v a / len2 F v - v' a / len2 F v') = fun a => 1 / len2 F v * (v a - v' a) + (1 / len2 F v - 1 / len2 F v') * v' a := by
    funext a; ring
  rw [e]
  refine (len2_add_le F _ _).trans ?_
  rw [len2_scale, len2_scale, abs_of_pos (by positivity)]
  have hd : |len2 F v - len2 F v'| ≤ len2 F (fun a => v a - v' a) := by
    have h1 := len2_add_le F (fun a => v a - v' a) v'
    have h2 := len2_add_le F (fun a => -1 * (v a - v' a)) v
    rw [len2_scale, abs_neg, abs_one, one_mul] at h2
    simp only [sub_add_cancel] at h1
    have e : (fun a => -1 * (v a - v' a) + v a) = v' := by funext a; ring
    rw [e] at h2
    rw [abs_le]; constructor <;> linarith
  have e2 : |1 / len2 F v - 1 / len2 F v'| * len2 F v' = |len2 F v - len2 F v'| / len2 F v := by
    rw [div_sub_div _ _ h.ne' h'.ne', abs_div, abs_of_pos (mul_pos h h'), abs_sub_comm]
    rw [one_mul, mul_one]
    field_simp
  rw [e2]
  have := div_le_div_of_nonneg_right hd h.le
  calc _ ≤ 1 / len2 F v * len2 F (fun a => v a - v' a) + len2 F (fun a => v a - v' a) / len2 F v := add_le_add le_rfl this
    _ = _ := by ring

theorem len2_dir {A : Type} (F : Finset A) {v : A → ℝ} (h : 0 < len2 F v) : len2 F (fun a => v a / len2 F v) = 1 := by
  have e : (fun a => v a / len2 F v) = fun a => 1 / len2 F v * v a := by funext a; ring
  rw [e, len2_scale, abs_of_pos (by positivity), one_div, inv_mul_cancel₀ h.ne']

/-- The angle between vectors depends on them continuously. -/
theorem cos_lip {A : Type} (F : Finset A) {v w v' w' : A → ℝ} (hv : 0 < len2 F v) (hw : 0 < len2 F w) (hv' : 0 < len2 F v') (hw' : 0 < len2 F w') :
    |(∑ a ∈ F, v a * w a) / (len2 F v * len2 F w) - (∑ a ∈ F, v' a * w' a) / (len2 F v' * len2 F w')| ≤
      2 * len2 F (fun a => v a - v' a) / len2 F v + 2 * len2 F (fun a => w a - w' a) / len2 F w := by
  have e : ∀ v w : A → ℝ, (∑ a ∈ F, v a * w a) / (len2 F v * len2 F w) = ∑ a ∈ F, (v a / len2 F v) * (w a / len2 F w) := by
    intro v w
    rw [Finset.sum_div]
    exact Finset.sum_congr rfl fun a _ => (div_mul_div_comm _ _ _ _).symm
  rw [e, e]
  have e2 : (∑ a ∈ F, (v a / len2 F v) * (w a / len2 F w)) - ∑ a ∈ F, (v' a / len2 F v') * (w' a / len2 F w') =
      (∑ a ∈ F, (v a / len2 F v - v' a / len2 F v') * (w a / len2 F w)) + ∑ a ∈ F, (v' a / len2 F v') * (w a / len2 F w - w' a / len2 F w') := by
    rw [← Finset.sum_sub_distrib, ← Finset.sum_add_distrib]
    exact Finset.sum_congr rfl fun a _ => by ring
  rw [e2]
  refine (abs_add_le _ _).trans (add_le_add ?_ ?_)
  · refine (inner_le F _ _).trans ?_
    rw [len2_dir F hw, mul_one]
    exact direction_le F hv hv'
  · refine (inner_le F _ _).trans ?_
    rw [len2_dir F hv', one_mul]
    exact direction_le F hw hw'

theorem clamp_lip (a b : ℝ) : |clamp a - clamp b| ≤ |a - b| := by
  unfold clamp
  rw [max_comm 0, max_comm 0]
  refine (abs_max_sub_max_le_abs _ _ _).trans ?_
  exact (abs_min_sub_min_le_max _ _ _ _).trans (by simp)

/-- The cosine distance of vectors that are not short. -/
theorem cosine_lip_long {A : Type} (F : Finset A) {v w v' w' : A → ℝ} {ε : ℝ} (hε : 0 ≤ ε)
    (hv : 1 ≤ len2 F v) (hw : 1 ≤ len2 F w) (hv' : 1 ≤ len2 F v') (hw' : 1 ≤ len2 F w')
    (dv : ∀ a ∈ F, |v a - v' a| ≤ ε) (dw : ∀ a ∈ F, |w a - w' a| ≤ ε) :
    |distance .cosine F v w - distance .cosine F v' w'| ≤ 4 * (F.card * ε) := by
  have short : ∀ u : A → ℝ, (∀ a ∈ F, |u a| ≤ ε) → len2 F u ≤ F.card * ε := by
    intro u hu
    refine (len2_le_sum F u).trans ?_
    rw [← nsmul_eq_mul]
    exact Finset.sum_le_card_nsmul _ _ _ hu
  have ratio : ∀ u v : A → ℝ, 1 ≤ len2 F v → (∀ a ∈ F, |u a| ≤ ε) → 2 * len2 F u / len2 F v ≤ 2 * (F.card * ε) := by
    intro u v h1 h2
    have h3 := short u h2
    have h0 := len2_nonneg F u
    exact (div_le_self (by linarith) h1).trans (by linarith)
  have a1 : 0 < len2 F v := by linarith
  have a2 : 0 < len2 F w := by linarith
  have a3 : 0 < len2 F v' := by linarith
  have a4 : 0 < len2 F w' := by linarith
  simp only [distance, a1.ne', a2.ne', a3.ne', a4.ne', or_self, if_false]
  refine (clamp_lip _ _).trans ?_
  rw [sub_sub_sub_cancel_left, abs_sub_comm]
  refine (cos_lip F a1 a2 a3 a4).trans ?_
  have r1 := ratio (fun a => v a - v' a) v hv dv
  have r2 := ratio (fun a => w a - w' a) w hw dw
  linarith

/-- The cosine distance of vectors whose entries are at least 1/4. -/
theorem cosine_lip {A : Type} (F : Finset A) (hF : F.Nonempty) {v w v' w' : A → ℝ} {ε : ℝ} (hε : 0 ≤ ε)
    (hv : ∀ a ∈ F, 1 / 4 ≤ v a) (hw : ∀ a ∈ F, 1 / 4 ≤ w a) (hv' : ∀ a ∈ F, 1 / 4 ≤ v' a) (hw' : ∀ a ∈ F, 1 / 4 ≤ w' a)
    (dv : ∀ a ∈ F, |v a - v' a| ≤ ε) (dw : ∀ a ∈ F, |w a - w' a| ≤ ε) :
    |distance .cosine F v w - distance .cosine F v' w'| ≤ 16 * ε := by
  have hn : (0 : ℝ) < F.card := by exact_mod_cast hF.card_pos
  have hs : 0 < Real.sqrt F.card := Real.sqrt_pos.2 hn
  have long : ∀ v : A → ℝ, (∀ a ∈ F, 1 / 4 ≤ v a) → Real.sqrt F.card / 4 ≤ len2 F v := by
    intro v hv
    unfold len2
    have : Real.sqrt F.card / 4 = Real.sqrt (F.card * (1 / 4) ^ 2) := by
      rw [Real.sqrt_mul hn.le, Real.sqrt_sq (by norm_num)]; ring
    rw [this]
    refine Real.sqrt_le_sqrt ?_
    have : ∑ _a ∈ F, (1 / 4 : ℝ) ^ 2 ≤ ∑ a ∈ F, v a ^ 2 := Finset.sum_le_sum fun a ha => pow_le_pow_left₀ (by norm_num) (hv a ha) 2
    rwa [Finset.sum_const, nsmul_eq_mul] at this
  have short : ∀ u : A → ℝ, (∀ a ∈ F, |u a| ≤ ε) → len2 F u ≤ Real.sqrt F.card * ε := by
    intro u hu
    unfold len2
    have : Real.sqrt F.card * ε = Real.sqrt (F.card * ε ^ 2) := by
      rw [Real.sqrt_mul hn.le, Real.sqrt_sq hε]
    rw [this]
    refine Real.sqrt_le_sqrt ?_
    have : ∑ a ∈ F, u a ^ 2 ≤ ∑ _a ∈ F, ε ^ 2 := Finset.sum_le_sum fun a ha => by
      rw [← sq_abs]; exact pow_le_pow_left₀ (abs_nonneg _) (hu a ha) 2
    rwa [Finset.sum_const, nsmul_eq_mul] at this
  have ratio : ∀ u v : A → ℝ, (∀ a ∈ F, 1 / 4 ≤ v a) → (∀ a ∈ F, |u a| ≤ ε) → 2 * len2 F u / len2 F v ≤ 8 * ε := by
    intro u v h1 h2
    have hl := long v h1
    rw [div_le_iff₀ ((by positivity : 0 < Real.sqrt F.card / 4).trans_le hl)]
    have h3 := short u h2
    have h4 := mul_le_mul_of_nonneg_left hl (by positivity : 0 ≤ 8 * ε)
    nlinarith
  have pos : ∀ v : A → ℝ, (∀ a ∈ F, 1 / 4 ≤ v a) → 0 < len2 F v := fun v h => (by positivity : 0 < Real.sqrt F.card / 4).trans_le (long v h)
  have a1 := pos v hv
  have a2 := pos w hw
  have a3 := pos v' hv'
  have a4 := pos w' hw'
  simp only [distance, a1.ne', a2.ne', a3.ne', a4.ne', or_self, if_false]
  refine (clamp_lip _ _).trans ?_
  rw [sub_sub_sub_cancel_left, abs_sub_comm]
  refine (cos_lip F a1 a2 a3 a4).trans ?_
  have r1 := ratio (fun a => v a - v' a) v hv dv
  have r2 := ratio (fun a => w a - w' a) w hw dw
  linarith

/-- The computed cosine distance of two vectors that are neither tiny nor huge. -/
theorem cosine_computed_wide {l : List (S × V × X)} (hl : l ≠ []) (hn : (allSources l).card ≤ 2 ^ 40) (T T' : S → ℝ)
    (hT : ∀ s ∈ sources l, |T s| ≤ 2 ^ (400 : ℤ)) (hT' : ∀ s ∈ sources l, |T' s| ≤ 2 ^ (400 : ℤ))
    (l1 : (2 : ℝ) ^ (-400 : ℤ) ≤ len2 (allSources l) T) (l2 : (2 : ℝ) ^ (-400 : ℤ) ≤ len2 (allSources l) T') :
    ∃ y, getDistance (some .cosine) ((sources l).map (fun s => (FP.fin (T s) : FP (.binary64 ω)))) ((sources l).map (fun s => FP.fin (T' s))) = .ok (FP.fin y) ∧
      |y - Spec.distance .cosine (allSources l) T T'| ≤ ((allSources l).card + 2) / 2 ^ 48 := by
  have hcard : (sources l).length = (allSources l).card := length_sources l
  have hsum : ∀ f : S → ℝ, ((sources l).map f).sum = ∑ s ∈ allSources l, f s := by
    intro f
    rw [← sources_toFinset, List.sum_toFinset _ (nodup_sources l)]
  have e0 : Real.sqrt ((sources l).map fun a => T a ^ 2).sum = len2 (allSources l) T := by rw [hsum]; rfl
  have e1 : Real.sqrt ((sources l).map fun a => T' a ^ 2).sum = len2 (allSources l) T' := by rw [hsum]; rfl
  obtain ⟨y, hy, herr⟩ := cosine_err (ω := ω) (sources l) (by rw [hcard]; exact hn) T T'
    hT hT'
    (by rw [e0]; exact l1) (by rw [e1]; exact l2)
  refine ⟨y, hy, ?_⟩
  rw [e0, e1, hsum, hcard] at herr
  have hd : Spec.distance .cosine (allSources l) T T' = clamp (1 - (∑ i ∈ allSources l, T i * T' i) / (len2 (allSources l) T * len2 (allSources l) T')) := by
    simp only [Spec.distance]
    rw [if_neg]
    rintro (h | h)
    · rw [h] at l1; exact absurd l1 (not_le.2 (two_zpow_pos _))
    · rw [h] at l2; exact absurd l2 (not_le.2 (two_zpow_pos _))
  rw [← hd] at herr
  have e48 : 32 * uu = 1 / 2 ^ 48 := by
    have : (1 : ℝ) / 2 ^ 48 = 2 ^ (-48 : ℤ) := by rw [zpow_neg, one_div]; norm_num
    rw [this, uu, show (32 : ℝ) = 2 ^ (5 : ℤ) by norm_num, ← zpow_add₀ two_ne_zero]; norm_num
  have e2 : 32 * ((allSources l).card * uu) + 64 * uu = ((allSources l).card + 2) / 2 ^ 48 := by
    have : 32 * ((allSources l).card * uu) + 64 * uu = (((allSources l).card : ℝ) + 2) * (32 * uu) := by ring
    rw [this, e48]; ring
  rwa [e2] at herr

/-- The computed cosine distance of two vectors that are not short. -/
theorem cosine_computed {l : List (S × V × X)} (hl : l ≠ []) (hn : (allSources l).card ≤ 2 ^ 40) (T T' : S → ℝ)
    (hT : ∀ s ∈ sources l, |T s| ≤ 1) (hT' : ∀ s ∈ sources l, |T' s| ≤ 1)
    (l1 : 1 / 4 ≤ len2 (allSources l) T) (l2 : 1 / 4 ≤ len2 (allSources l) T') :
    ∃ y, getDistance (some .cosine) ((sources l).map (fun s => (FP.fin (T s) : FP (.binary64 ω)))) ((sources l).map (fun s => FP.fin (T' s))) = .ok (FP.fin y) ∧
      |y - Spec.distance .cosine (allSources l) T T'| ≤ ((allSources l).card + 2) / 2 ^ 48 := by
  have one : (1 : ℝ) ≤ 2 ^ (400 : ℤ) := one_le_zpow₀ one_le_two (by norm_num)
  have small : (2 : ℝ) ^ (-400 : ℤ) ≤ 1 / 4 := by
    have : (1 : ℝ) / 4 = 2 ^ (-2 : ℤ) := by norm_num
    rw [this]
    exact zpow_le_zpow_right₀ one_le_two (by norm_num)
  exact cosine_computed_wide hl hn T T' (fun s hs => (hT s hs).trans one) (fun s hs => (hT' s hs).trans one) (small.trans l1) (small.trans l2)

/-- The computed cosine distance from the vector of zeros. -/
theorem cosine_zero {l : List (S × V × X)} (hl : l ≠ []) (hn : (allSources l).card ≤ 2 ^ 40) (T T' : S → ℝ)
    (hT : ∀ s ∈ sources l, T s = 0) (hT' : ∀ s ∈ sources l, |T' s| ≤ 1) :
    getDistance (some .cosine) ((sources l).map (fun s => (FP.fin (T s) : FP (.binary64 ω)))) ((sources l).map (fun s => FP.fin (T' s))) =
      .ok (FP.fin 1) := by
  have hcard : (sources l).length = (allSources l).card := length_sources l
  have hn50 : (sources l).length ≤ 2 ^ 50 := by rw [hcard]; omega
  have one : (1 : ℝ) ≤ 2 ^ (402 : ℤ) := one_le_zpow₀ one_le_two (by norm_num)
  obtain ⟨N1, -, -, n1, -, z1⟩ := norm_err (ω := ω) (sources l) hn50 T fun s hs => by rw [hT s hs, abs_zero]; positivity
  obtain ⟨N2, -, -, n2, -, -⟩ := norm_err (ω := ω) (sources l) hn50 T' fun s hs => (hT' s hs).trans one
  simp only [getDistance]
  rw [n1, n2, eq_fin_zero, eq_fin_zero, if_pos, FP.one_eq]
  simp [z1 hT]

/-- The computed cosine distance of two vectors of trust scores close to exact ones, all at least 1/4. -/
theorem TrustNear.cosine_real {l : List (S × V × X)} (hl : l ≠ []) (hn : (allSources l).card ≤ 2 ^ 40)
    {ε : ℝ} {x x' T T' : S → ℝ} 
    (hT : ∀ s ∈ sources l, IsDouble (T s) ∧ 1 / 4 ≤ T s ∧ T s ≤ 1 ∧ |T s - x s| ≤ ε)
    (hT' : ∀ s ∈ sources l, IsDouble (T' s) ∧ 1 / 4 ≤ T' s ∧ T' s ≤ 1 ∧ |T' s - x' s| ≤ ε)
    (hx : ∀ s ∈ allSources l, 1 / 4 ≤ x s) (hx' : ∀ s ∈ allSources l, 1 / 4 ≤ x' s) :
    ∃ y, getDistance (some .cosine) ((sources l).map (fun s => (FP.fin (T s) : FP (.binary64 ω)))) ((sources l).map (fun s => FP.fin (T' s))) = .ok (FP.fin y) ∧
      |y - Spec.distance .cosine (allSources l) x x'| ≤ ((allSources l).card + 2) / 2 ^ 48 + 16 * ε := by
  have hne := allSources_nonempty hl
  have hS : ∀ s, s ∈ allSources l → s ∈ sources l := fun s hs => (mem_allSources l).1 hs
  have hc1 : (1 : ℝ) ≤ (allSources l).card := by exact_mod_cast hne.card_pos
  have long : ∀ v : S → ℝ, (∀ a ∈ allSources l, 1 / 4 ≤ v a) → 1 / 4 ≤ len2 (allSources l) v := by
    intro v hv
    refine Real.le_sqrt_of_sq_le ?_
    have : ∑ _a ∈ allSources l, (1 / 4 : ℝ) ^ 2 ≤ ∑ a ∈ allSources l, v a ^ 2 := Finset.sum_le_sum fun a ha => pow_le_pow_left₀ (by norm_num) (hv a ha) 2
    rw [Finset.sum_const, nsmul_eq_mul] at this
    nlinarith
  have low : ∀ s ∈ allSources l, 1 / 4 ≤ T s := fun s hs => (hT s (hS s hs)).2.1
  have low' : ∀ s ∈ allSources l, 1 / 4 ≤ T' s := fun s hs => (hT' s (hS s hs)).2.1
  obtain ⟨y, hy, herr⟩ := cosine_computed (ω := ω) hl hn T T'
    (fun s hs => by rw [abs_of_nonneg (by linarith [(hT s hs).2.1])]; exact (hT s hs).2.2.1)
    (fun s hs => by rw [abs_of_nonneg (by linarith [(hT' s hs).2.1])]; exact (hT' s hs).2.2.1)
    (long T low) (long T' low')
  refine ⟨y, hy, ?_⟩
  obtain ⟨s0, hs0⟩ := hne
  have hε : 0 ≤ ε := (abs_nonneg _).trans (hT s0 (hS s0 hs0)).2.2.2
  have hlip := cosine_lip (allSources l) ⟨s0, hs0⟩ hε low low' hx hx' (fun s hs => (hT s (hS s hs)).2.2.2) (fun s hs => (hT' s (hS s hs)).2.2.2)
  calc _ ≤ |y - Spec.distance .cosine (allSources l) T T'| + |Spec.distance .cosine (allSources l) T T' - Spec.distance .cosine (allSources l) x x'| := abs_sub_le _ _ _
    _ ≤ _ := add_le_add herr hlip

end TD
