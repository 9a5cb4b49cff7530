import Verif.Lemmas.CrhNear
import Verif.Lemmas.SameIterations
import Mathlib.Analysis.Complex.ExponentialBounds
/-!
# The cosine distance of the trust scores of CRH
-/

namespace TD
open Spec Double
attribute [-instance] instBEqProd
variable {S V X : Type} [DecidableEq S] [DecidableEq V] [DecidableEq X] {ω : Platform}

/-- Some trust score is not small. -/
theorem crh_long {l : List (S × V × X)} {e : ℝ} (he : 0 < e) (h2 : 2 ≤ (allSources l).card)
    (hτ : crhTau (allSources l).card (allClaims l).card ≤ 1 / 8) {b : V × X → ℝ} {p : Scores S V X} (hp : CrhAccurate l e b p) :
    ∃ s ∈ allSources l, 1 / 2 ≤ p.1 s := by
  have hne : (allSources l).Nonempty := Finset.card_pos.1 (by omega)
  have hc : (2 : ℝ) ≤ (allSources l).card := by exact_mod_cast h2
  obtain ⟨T, hT⟩ : ∃ T : ℝ, T = ∑ r ∈ allSources l, (e + loss l b r) := ⟨_, rfl⟩
  have hpos : ∀ r, 0 < e + loss l b r := fun r => by linarith [loss_nonneg (l := l) b r]
  have hT0 : 0 < T := by rw [hT]; exact Finset.sum_pos (fun r _ => hpos r) hne
  obtain ⟨s, hs, hle⟩ := Finset.exists_le_of_sum_le (s := allSources l) (f := fun r => e + loss l b r) (g := fun _ => T / (allSources l).card) hne (by
    rw [Finset.sum_const, nsmul_eq_mul, mul_div_cancel₀ _ (by positivity), hT])
  refine ⟨s, hs, ?_⟩
  have h1 := hp.trust s hs
  rw [← hT] at h1
  have h3 : (e + loss l b s) / T ≤ 1 / 2 := by
    rw [div_le_iff₀ hT0]
    refine hle.trans ?_
    rw [div_le_iff₀ (by positivity)]
    nlinarith
  have h4 := Real.log_le_log (div_pos (hpos s) hT0) h3
  rw [one_div, Real.log_inv] at h4
  have h5 := Real.log_two_gt_d9
  have h6 : (4 * ((allClaims l).card : ℝ) + (allSources l).card + 144) / 2 ^ 52 ≤ 1 / 8 := hτ
  have h7 := (abs_le.1 (h1.trans h6)).1
  norm_num at h5 h4 ⊢
  linarith

/-- The cosine distance of vectors that are close and not short. -/
theorem cosine_close {A : Type} (F : Finset A) {v w : A → ℝ} {η : ℝ} (hv : 1 / 2 ≤ len2 F v) (hw : 1 / 2 ≤ len2 F w)
    (hd : ∑ a ∈ F, |v a - w a| ≤ η) : distance .cosine F v w ≤ 8 * η ^ 2 := by
  have h1 : 0 < len2 F v := by linarith
  have h2 : 0 < len2 F w := by linarith
  have h3 := direction_le F h1 h2
  have h4 := (len2_le_sum F fun a => v a - w a).trans hd
  have h5 : len2 F (fun a => v a / len2 F v - w a / len2 F w) ≤ 4 * η := by
    refine h3.trans ?_
    rw [div_le_iff₀ h1]
    have := len2_nonneg F (fun a => v a - w a)
    nlinarith
  have hη : 0 ≤ η := (len2_nonneg F _).trans h4
  have e : len2 F (fun a => v a / len2 F v - w a / len2 F w) ^ 2 = 2 - 2 * ((∑ a ∈ F, v a * w a) / (len2 F v * len2 F w)) := by
    have hsq : ∀ u : A → ℝ, len2 F u ^ 2 = ∑ a ∈ F, u a ^ 2 := fun u => Real.sq_sqrt (Finset.sum_nonneg fun a _ => sq_nonneg _)
    have i1 := hsq fun a => v a / len2 F v
    have i2 := hsq fun a => w a / len2 F w
    rw [len2_dir F h1] at i1
    rw [len2_dir F h2] at i2
    rw [hsq]
    have : ∀ a, (v a / len2 F v - w a / len2 F w) ^ 2 = (v a / len2 F v) ^ 2 + (w a / len2 F w) ^ 2 - 2 * (v a * w a / (len2 F v * len2 F w)) := fun a => by
      rw [← div_mul_div_comm]; ring
    simp only [this]
    rw [Finset.sum_sub_distrib, Finset.sum_add_distrib, ← i1, ← i2, ← Finset.mul_sum, ← Finset.sum_div]
    ring
  have h6 := pow_le_pow_left₀ (len2_nonneg F _) h5 2
  rw [e] at h6
  simp only [distance]
  rw [if_neg (by rintro (h | h) <;> linarith)]
  unfold clamp
  refine max_le (by positivity) ((min_le_right _ _).trans ?_)
  linarith

/-- The cosine distance of two positive numbers. -/
theorem cosine_single {A : Type} (F : Finset A) (h : F.card = 1) {v w : A → ℝ} (hv : ∀ a ∈ F, 0 < v a) (hw : ∀ a ∈ F, 0 < w a) :
    distance .cosine F v w = 0 := by
  obtain ⟨a, rfl⟩ := Finset.card_eq_one.1 h
  have hl : ∀ u : A → ℝ, 0 < u a → len2 {a} u = u a := fun u h => by
    simp only [len2, Finset.sum_singleton]; exact Real.sqrt_sq h.le
  have h1 := hv a (Finset.mem_singleton_self a)
  have h2 := hw a (Finset.mem_singleton_self a)
  simp only [distance, hl v h1, hl w h2, Finset.sum_singleton]
  rw [if_neg (by rintro (h | h) <;> linarith), div_self (by positivity)]
  simp [clamp]

theorem len2_ge {A : Type} {F : Finset A} {v : A → ℝ} {a : A} (ha : a ∈ F) {c : ℝ} (hc : 0 ≤ c) (h : c ≤ v a) : c ≤ len2 F v := by
  refine Real.le_sqrt_of_sq_le ((pow_le_pow_left₀ hc h 2).trans ?_)
  exact Finset.single_le_sum (f := fun a => v a ^ 2) (fun a _ => sq_nonneg _) ha

end TD
