import Verif.Spec.TfAccurate
import Verif.Lemmas.Algos
import Mathlib.Analysis.SpecialFunctions.Log.Basic
/-!
# How errors of the trust scores spread in an iteration of TruthFinder

What matters is the distance `1 - t` of a trust score from 1: if the logarithms of these distances are wrong by `E`, then
those of the next ones are wrong by at most `gamma b E`, `b` the largest number of sources of a claim, and by what rounding adds.
-/

namespace TD
open Spec
attribute [-instance] instBEqProd

variable {S V X : Type} [DecidableEq S] [DecidableEq V] [DecidableEq X]

/-- The distance of the sigmoid function from 1. -/
theorem one_sub_sig (x : ℝ) : 1 - 1 / (1 + Real.exp (-x)) = 1 / (1 + Real.exp x) := by
  rw [Real.exp_neg]
  have := Real.exp_pos x
  field_simp
  ring

theorem sig_gap {x y F : ℝ} (hF : 0 ≤ F) (h : |x - y| ≤ F) :
    1 / (1 + Real.exp x) * Real.exp (-F) ≤ 1 / (1 + Real.exp y) := by
  have h1 : y ≤ x + F := by linarith [(abs_le.1 h).1]
  have h2 : Real.exp y ≤ Real.exp x * Real.exp F := by rw [← Real.exp_add]; exact Real.exp_le_exp.2 h1
  have h3 := Real.one_le_exp hF
  have hx := Real.exp_pos x
  have hy := Real.exp_pos y
  rw [Real.exp_neg, div_mul_eq_mul_div, one_mul, inv_eq_one_div, div_div, one_div_le_one_div (by positivity) (by positivity)]
  nlinarith

theorem exp_sub_one_le {F : ℝ} (h0 : 0 ≤ F) (h1 : F ≤ 1 / 2) : Real.exp F - 1 ≤ 2 * F := by
  have h := Real.add_one_le_exp (-F)
  have hp := Real.exp_pos F
  have e : Real.exp (-F) * Real.exp F = 1 := by rw [← Real.exp_add]; simp
  nlinarith

/-- A distance `u` (at most 1/2) of a score from 1, known up to the factor `e ^ F`. -/
theorem gap_abs {u m F : ℝ} (hu0 : 0 ≤ u) (hu : u ≤ 1 / 2) (hF : 0 ≤ F) (hF1 : F ≤ 1 / 2) (h1 : u * Real.exp (-F) ≤ m) (h2 : m ≤ u * Real.exp F) :
    |m - u| ≤ F := by
  have h3 := exp_sub_one_le hF hF1
  have h4 := Real.add_one_le_exp (-F)
  rw [abs_le]
  constructor
  · nlinarith
  · nlinarith

theorem gap_log {u m v F ε δ : ℝ} (hδ : 0 < δ) (hu : δ ≤ u) (hF : 0 ≤ F) (hε : 0 ≤ ε) (hF1 : F + 4 * ε / δ ≤ 1 / 2)
    (h1 : u * Real.exp (-F) ≤ m) (h2 : m ≤ u * Real.exp F) (h3 : |v - m| ≤ ε) :
    0 < v ∧ |Real.log v - Real.log u| ≤ F + 4 * ε / δ := by
  obtain ⟨x, hx⟩ : ∃ x, x = 2 * ε / δ := ⟨_, rfl⟩
  have ex : 4 * ε / δ = 2 * x := by rw [hx]; ring
  have hx0 : 0 ≤ x := by rw [hx]; positivity
  rw [ex] at hF1 ⊢
  have hu0 : 0 < u := by linarith
  have h4 := Real.add_one_le_exp (-F)
  have hm : δ / 2 ≤ m := by nlinarith
  have hm0 : 0 < m := by linarith
  have hεm : ε ≤ m * x := by
    have : ε = δ / 2 * x := by rw [hx]; field_simp
    rw [this]
    exact mul_le_mul_of_nonneg_right hm hx0
  obtain ⟨h5, h6⟩ := abs_le.1 h3
  have lo : u * Real.exp (-(F + 2 * x)) ≤ v := by
    have a1 := Real.add_one_le_exp (2 * x)
    have a2 : Real.exp (-(2 * x)) ≤ 1 - x := by
      rw [Real.exp_neg, inv_eq_one_div, div_le_iff₀ (Real.exp_pos _)]
      nlinarith
    have e : Real.exp (-(F + 2 * x)) = Real.exp (-F) * Real.exp (-(2 * x)) := by rw [← Real.exp_add]; congr 1; ring
    rw [e, ← mul_assoc]
    calc u * Real.exp (-F) * Real.exp (-(2 * x)) ≤ m * (1 - x) :=
          mul_le_mul h1 a2 (Real.exp_pos _).le hm0.le
      _ ≤ v := by linarith
  have hi : v ≤ u * Real.exp (F + 2 * x) := by
    have a1 := Real.add_one_le_exp (2 * x)
    rw [Real.exp_add, ← mul_assoc]
    calc v ≤ m * (1 + 2 * x) := by nlinarith
      _ ≤ u * Real.exp F * Real.exp (2 * x) := mul_le_mul h2 (by linarith) (by linarith) (by positivity)
  have hv : 0 < v := lt_of_lt_of_le (by positivity) lo
  refine ⟨hv, abs_le.2 ⟨?_, ?_⟩⟩
  · have := Real.log_le_log (by positivity) lo
    rw [Real.log_mul hu0.ne' (Real.exp_pos _).ne', Real.log_exp] at this
    linarith
  · have := Real.log_le_log hv hi
    rw [Real.log_mul hu0.ne' (Real.exp_pos _).ne', Real.log_exp] at this
    linarith

/-- TruthFinder without implications. -/
theorem tfStep_plain (l : List (S × V × X)) (g : ℝ) (p : Scores S V X) :
    (∀ c, (tfStep l (fun _ _ _ => 0) 0 g p).2 c = 1 / (1 + Real.exp (-(g * ∑ s ∈ sourcesOf l c, -Real.log (1 - p.1 s))))) ∧
    ∀ s, (tfStep l (fun _ _ _ => 0) 0 g p).1 s = (∑ c ∈ claimsOf l s, (tfStep l (fun _ _ _ => 0) 0 g p).2 c) / (claimsOf l s).card := by
  refine ⟨fun c => ?_, fun s => ?_⟩
  · simp only [tfStep, zero_mul, add_zero, neg_mul]
  · rfl

/-- One iteration. -/
theorem tf_gap {R : Rounding} {l : List (S × V × X)} {a b : Nat} (ha : ∀ s, (claimsOf l s).card ≤ a) (hb : ∀ c, (sourcesOf l c).card ≤ b) {g E : ℝ} (hg : 0 ≤ g) (hE : 0 ≤ E)
    (hF : g * b * E ≤ 1 / 2) {p : Scores S V X} {r r' : Result S V X (FP R)} (hacc : TfAccurate l g r r') {t : S → ℝ}
    (ht : ∀ s ∈ allSources l, HasTrust r s (FP.fin (t s)) ∧ t s < 1 ∧ p.1 s < 1 ∧ |Real.log (1 - t s) - Real.log (1 - p.1 s)| ≤ E)
    (hp : ∀ s ∈ allSources l, 0 ≤ p.1 s) :
    (∀ c ∈ allClaims l, ∃ y, HasBelief r' c (FP.fin y) ∧ |y - (tfStep l (fun _ _ _ => 0) 0 g p).2 c| ≤ g * b * E + (b + 21) / 2 ^ 52) ∧
    ∀ s ∈ allSources l, ∃ y m, HasTrust r' s (FP.fin y) ∧ |(1 - y) - m| ≤ (a + b + 23) / 2 ^ 52 ∧
      0 ≤ 1 - (tfStep l (fun _ _ _ => 0) 0 g p).1 s ∧ 1 - (tfStep l (fun _ _ _ => 0) 0 g p).1 s ≤ 1 / 2 ∧
      (1 - (tfStep l (fun _ _ _ => 0) 0 g p).1 s) * Real.exp (-(g * b * E)) ≤ m ∧
      m ≤ (1 - (tfStep l (fun _ _ _ => 0) 0 g p).1 s) * Real.exp (g * b * E) := by
  obtain ⟨eb, et⟩ := tfStep_plain l g p
  have hF0 : 0 ≤ g * b * E := by positivity
  set F := g * b * E with hFdef
  -- the beliefs
  have bel : ∀ c ∈ allClaims l, ∃ y z, HasBelief r' c (FP.fin y) ∧ |y - z| ≤ (b + 21) / 2 ^ 52 ∧
      0 ≤ 1 - (tfStep l (fun _ _ _ => 0) 0 g p).2 c ∧ 1 - (tfStep l (fun _ _ _ => 0) 0 g p).2 c ≤ 1 / 2 ∧
      (1 - (tfStep l (fun _ _ _ => 0) 0 g p).2 c) * Real.exp (-F) ≤ 1 - z ∧
      1 - z ≤ (1 - (tfStep l (fun _ _ _ => 0) 0 g p).2 c) * Real.exp F := by
    intro c hc
    have hsub : ∀ s ∈ sourcesOf l c, s ∈ allSources l := fun s hs => (mem_allSources l).2 (mem_sources_of_sourcesOf l hs)
    obtain ⟨y, h1, -, -, h2⟩ := hacc.belief c hc t fun s hs => ⟨(ht s (hsub s hs)).1, (ht s (hsub s hs)).2.1⟩
    refine ⟨y, _, h1, h2.trans ?_, ?_⟩
    · have : ((sourcesOf l c).card : ℝ) ≤ b := by exact_mod_cast hb c
      gcongr
    rw [eb, one_sub_sig, one_sub_sig]
    have hdist : |g * (∑ s ∈ sourcesOf l c, -Real.log (1 - p.1 s)) - g * ∑ s ∈ sourcesOf l c, -Real.log (1 - t s)| ≤ F := by
      rw [← mul_sub, ← Finset.sum_sub_distrib, abs_mul, abs_of_nonneg hg, hFdef, mul_assoc]
      refine mul_le_mul_of_nonneg_left ?_ hg
      refine (Finset.abs_sum_le_sum_abs _ _).trans ?_
      refine (Finset.sum_le_card_nsmul _ _ E fun s hs => ?_).trans ?_
      · have := (ht s (hsub s hs)).2.2.2
        rwa [show -Real.log (1 - p.1 s) - -Real.log (1 - t s) = Real.log (1 - t s) - Real.log (1 - p.1 s) by ring]
      · rw [nsmul_eq_mul]
        have : ((sourcesOf l c).card : ℝ) ≤ b := by exact_mod_cast hb c
        gcongr
    have hx : 0 ≤ g * (∑ s ∈ sourcesOf l c, -Real.log (1 - p.1 s)) := by
      refine mul_nonneg hg (Finset.sum_nonneg fun s hs => ?_)
      have h3 := (ht s (hsub s hs)).2.2.1
      have := Real.log_le_sub_one_of_pos (by linarith : 0 < 1 - p.1 s)
      linarith [hp s (hsub s hs)]
    refine ⟨by positivity, ?_, ?_, ?_⟩
    · have := Real.one_le_exp hx
      exact one_div_le_one_div_of_le (by norm_num) (by linarith)
    · exact sig_gap hF0 hdist
    · have := sig_gap hF0 (by rw [abs_sub_comm]; exact hdist)
      rw [Real.exp_neg, ← div_eq_mul_inv, div_le_iff₀ (Real.exp_pos _)] at this
      exact this
  constructor
  · intro c hc
    obtain ⟨y, z, h1, h2, h3, h4, h5, h6⟩ := bel c hc
    refine ⟨y, h1, ?_⟩
    have h7 := gap_abs h3 h4 hF0 hF h5 h6
    rw [show 1 - z - (1 - (tfStep l (fun _ _ _ => 0) 0 g p).2 c) = -(z - (tfStep l (fun _ _ _ => 0) 0 g p).2 c) by ring, abs_neg] at h7
    calc _ ≤ |y - z| + |z - (tfStep l (fun _ _ _ => 0) 0 g p).2 c| := abs_sub_le _ _ _
      _ ≤ _ := by linarith
  · intro s hs
    have hs' := (mem_allSources l).1 hs
    have hpos : (0 : ℝ) < (claimsOf l s).card := by exact_mod_cast (claimsOf_nonempty l hs').card_pos
    have hsub : ∀ c ∈ claimsOf l s, c ∈ allClaims l := fun c hc => (mem_allClaims l).2 (mem_claims_of_claimsOf l hc)
    choose! y z h1 h2 h3 h4 h5 h6 using bel
    obtain ⟨t', k1, k2⟩ := hacc.trust s hs y fun c hc => h1 c (hsub c hc)
    have mean : ∀ w : V × X → ℝ, 1 - (∑ c ∈ claimsOf l s, w c) / (claimsOf l s).card = (∑ c ∈ claimsOf l s, (1 - w c)) / (claimsOf l s).card := by
      intro w
      rw [Finset.sum_sub_distrib, Finset.sum_const, nsmul_eq_mul, mul_one, sub_div, div_self hpos.ne']
    refine ⟨t', 1 - (∑ c ∈ claimsOf l s, z c) / (claimsOf l s).card, k1, ?_, ?_⟩
    · have k3 : |(∑ c ∈ claimsOf l s, y c) / (claimsOf l s).card - (∑ c ∈ claimsOf l s, z c) / (claimsOf l s).card| ≤ (b + 21) / 2 ^ 52 := by
        rw [← sub_div, ← Finset.sum_sub_distrib, abs_div, abs_of_pos hpos, div_le_iff₀ hpos, mul_comm]
        refine (Finset.abs_sum_le_sum_abs _ _).trans ?_
        refine (Finset.sum_le_card_nsmul _ _ _ fun c hc => h2 c (hsub c hc)).trans_eq (nsmul_eq_mul _ _)
      have k4 : ((claimsOf l s).card + 2 : ℝ) / 2 ^ 52 ≤ (a + 2) / 2 ^ 52 := by
        have : ((claimsOf l s).card : ℝ) ≤ a := by exact_mod_cast ha s
        gcongr
      rw [show 1 - t' - (1 - (∑ c ∈ claimsOf l s, z c) / (claimsOf l s).card) = -(t' - (∑ c ∈ claimsOf l s, z c) / (claimsOf l s).card) by ring, abs_neg]
      have k5 := abs_sub_le t' ((∑ c ∈ claimsOf l s, y c) / (claimsOf l s).card) ((∑ c ∈ claimsOf l s, z c) / (claimsOf l s).card)
      have : ((a : ℝ) + b + 23) / 2 ^ 52 = (a + 2) / 2 ^ 52 + (b + 21) / 2 ^ 52 := by ring
      linarith
    · rw [et, mean, mean, div_mul_eq_mul_div, div_mul_eq_mul_div, Finset.sum_mul, Finset.sum_mul]
      refine ⟨div_nonneg (Finset.sum_nonneg fun c hc => h3 c (hsub c hc)) hpos.le, ?_, ?_, ?_⟩
      · rw [div_le_iff₀ hpos]
        refine (Finset.sum_le_card_nsmul _ _ _ fun c hc => h4 c (hsub c hc)).trans_eq ?_
        rw [nsmul_eq_mul, mul_comm]
      · exact div_le_div_of_nonneg_right (Finset.sum_le_sum fun c hc => h5 c (hsub c hc)) hpos.le
      · exact div_le_div_of_nonneg_right (Finset.sum_le_sum fun c hc => h6 c (hsub c hc)) hpos.le

end TD
