import Verif.Props.CrhSettle
import Verif.Spec.CrhAccurate
/-!
# CRH computed with small errors lowers its objective, nearly
-/

namespace TD
open Spec
attribute [-instance] instBEqProd
variable {S V X : Type} [DecidableEq S] [DecidableEq V] [DecidableEq X] {l : List (S × V × X)}

/-- The share of the trust that the sources of a claim have. -/
noncomputable def crhShare (l : List (S × V × X)) (t : S → ℝ) (c : V × X) : ℝ := (∑ s ∈ sourcesOf l c, t s) / ∑ r ∈ allSources l, t r

theorem sourcesOf_sub (l : List (S × V × X)) (c : V × X) : sourcesOf l c ⊆ allSources l :=
  fun _ hs => (mem_allSources l).2 (mem_sources_of_sourcesOf l hs)

theorem crhShare_le {t : S → ℝ} (ht : ∀ s ∈ allSources l, 0 < t s) (hl : l ≠ []) (c : V × X) : 0 ≤ crhShare l t c ∧ crhShare l t c ≤ 1 := by
  have hT : 0 < ∑ r ∈ allSources l, t r := Finset.sum_pos ht (allSources_nonempty hl)
  refine ⟨div_nonneg (Finset.sum_nonneg fun s hs => (ht s (sourcesOf_sub l c hs)).le) hT.le, ?_⟩
  unfold crhShare
  rw [div_le_one hT]
  exact Finset.sum_le_sum_of_subset_of_nonneg (sourcesOf_sub l c) fun r hr _ => (ht r hr).le

theorem crhW_ge (hl : l ≠ []) {eps : ℝ} (he : 0 < eps) (b : V × X → ℝ) {s : S} (hs : s ∈ allSources l) : eps ≤ crhW l eps b s :=
  crhT_ge' hl he ((fun _ => 0), b) ((mem_allSources l).1 hs)

/-- The weights of two or more sources do not add up to little. -/
theorem crhW_total {eps : ℝ} (he : 0 < eps) {w : S → ℝ} (hw : Admissible l eps w) :
    ((allSources l).card : ℝ) - 1 ≤ ∑ r ∈ allSources l, w r := by
  have : ∀ s ∈ allSources l, 1 - Real.exp (-(w s - eps)) ≤ w s := fun s _ => by
    linarith [Real.add_one_le_exp (-(w s - eps))]
  have h := Finset.sum_le_sum this
  unfold Admissible at hw
  rw [Finset.sum_sub_distrib, hw, Finset.sum_const, nsmul_eq_mul, mul_one] at h
  exact h

/-- Shares of nearly the same trust. -/
theorem crhShare_near (hl : l ≠ []) {eps ε : ℝ} (he : 0 < eps) (hε : 0 ≤ ε) (hε8 : ε ≤ 1 / 8) {w t : S → ℝ} (hw : Admissible l eps w)
    (hw0 : ∀ s ∈ allSources l, eps ≤ w s) (ht : ∀ s ∈ allSources l, 0 < t s) (hd : ∀ s ∈ allSources l, |t s - w s| ≤ ε) (c : V × X) :
    |crhShare l t c - crhShare l w c| ≤ 8 * ε := by
  have hne := allSources_nonempty hl
  have hT : 0 < ∑ r ∈ allSources l, t r := Finset.sum_pos ht hne
  have hW : 0 < ∑ r ∈ allSources l, w r := Finset.sum_pos (fun s hs => he.trans_le (hw0 s hs)) hne
  have hsub := sourcesOf_sub l c
  by_cases h1 : (allSources l).card = 1
  · obtain ⟨a, ha⟩ := Finset.card_eq_one.1 h1
    have : crhShare l t c = crhShare l w c := by
      unfold crhShare
      rcases Finset.subset_singleton_iff.1 (ha ▸ hsub) with h | h
      · rw [h]; simp
      · rw [h, ← ha, div_self hT.ne', div_self hW.ne']
    rw [this, sub_self, abs_zero]
    linarith
  · have h2 : 2 ≤ (allSources l).card := by have := hne.card_pos; omega
    have h2' : (2 : ℝ) ≤ (allSources l).card := by exact_mod_cast h2
    have htot := crhW_total he hw
    have near : ∀ A ⊆ allSources l, |∑ s ∈ A, t s - ∑ s ∈ A, w s| ≤ (allSources l).card * ε := by
      intro A hA
      rw [← Finset.sum_sub_distrib]
      refine (Finset.abs_sum_le_sum_abs _ _).trans ((Finset.sum_le_card_nsmul _ _ ε fun s hs => hd s (hA hs)).trans ?_)
      rw [nsmul_eq_mul]
      exact mul_le_mul_of_nonneg_right (by exact_mod_cast Finset.card_le_card hA) hε
    have nA := near _ hsub
    have nT := near _ (Finset.Subset.refl _)
    have hA : 0 ≤ ∑ s ∈ sourcesOf l c, w s := Finset.sum_nonneg fun s hs => he.le.trans (hw0 s (hsub hs))
    have hAW : ∑ s ∈ sourcesOf l c, w s ≤ ∑ r ∈ allSources l, w r :=
      Finset.sum_le_sum_of_subset_of_nonneg hsub fun r hr _ => he.le.trans (hw0 r hr)
    unfold crhShare
    generalize ∑ s ∈ sourcesOf l c, t s = a at *
    generalize ∑ s ∈ sourcesOf l c, w s = A at *
    generalize ∑ s ∈ allSources l, t s = τ at *
    generalize ∑ s ∈ allSources l, w s = ω at *
    generalize ((allSources l).card : ℝ) = n at *
    have hτ : n / 4 ≤ τ := by
      have := (abs_le.1 nT).1
      nlinarith
    rw [div_sub_div _ _ hT.ne' hW.ne', abs_div, abs_of_pos (mul_pos hT hW), div_le_iff₀ (mul_pos hT hW)]
    have e : a * ω - τ * A = (a - A) * ω - (τ - ω) * A := by ring
    rw [e]
    have s1 : |(a - A) * ω - (τ - ω) * A| ≤ n * ε * ω + n * ε * A := by
      refine (abs_sub _ _).trans ?_
      rw [abs_mul, abs_mul, abs_of_pos hW, abs_of_nonneg hA]
      exact add_le_add (mul_le_mul_of_nonneg_right nA hW.le) (mul_le_mul_of_nonneg_right nT hA)
    have s2 : n * ε * A ≤ n * ε * ω := mul_le_mul_of_nonneg_left hAW (by positivity)
    have s3 : (n / 4) * (8 * ε * ω) ≤ τ * (8 * ε * ω) := mul_le_mul_of_nonneg_right hτ (by positivity)
    nlinarith

/-- How wrong the beliefs are after an iteration. -/
noncomputable def crhEta (n m : Nat) : ℝ := (32 * m + 10 * n + 1153) / 2 ^ 52

/-- How wrong the trust scores are after an iteration. -/
noncomputable def crhTau (n m : Nat) : ℝ := (4 * m + n + 144) / 2 ^ 52

theorem crh_near_belief (hl : l ≠ []) {eps : ℝ} (he : 0 < eps) {b : V × X → ℝ} {p : Scores S V X}
    (hτ : crhTau (allSources l).card (allClaims l).card ≤ 1 / 8)
    (h : CrhAccurate l eps b p) (hp : ∀ s ∈ allSources l, 0 < p.1 s) {c : V × X} (hc : c ∈ allClaims l) :
    |p.2 c - crhShare l (crhW l eps b) c| ≤ crhEta (allSources l).card (allClaims l).card := by
  have h1 : |p.2 c - crhShare l p.1 c| ≤ crhShare l p.1 c * ((2 * (allSources l).card + 1) / 2 ^ 52) := h.belief c hc
  have h2 := crhShare_near hl he (by unfold crhTau; positivity) hτ (crhW_admissible hl he b) (fun s hs => crhW_ge hl he b hs) hp
    (fun s hs => h.trust s hs) c
  have h3 := mul_le_mul_of_nonneg_right (crhShare_le hp hl c).2 (show (0 : ℝ) ≤ (2 * (allSources l).card + 1) / 2 ^ 52 by positivity)
  have h4 := abs_sub_le (p.2 c) (crhShare l p.1 c) (crhShare l (crhW l eps b) c)
  refine h4.trans ((add_le_add (h1.trans h3) h2).trans (le_of_eq ?_))
  unfold crhTau crhEta
  ring

/-- The objective for the best weights. -/
noncomputable def crhPsi (l : List (S × V × X)) (eps : ℝ) (b : V × X → ℝ) : ℝ := objective l eps (crhW l eps b) b

theorem crhPsi_nonneg (hl : l ≠ []) {eps : ℝ} (he : 0 < eps) (b : V × X → ℝ) : 0 ≤ crhPsi l eps b :=
  Finset.sum_nonneg fun s hs => mul_nonneg (he.le.trans (crhW_ge hl he b hs)) (by linarith [loss_nonneg (l := l) b s])

/-- The distance from the best beliefs. -/
noncomputable def crhOff (l : List (S × V × X)) (eps : ℝ) (b b' : V × X → ℝ) : ℝ :=
  ∑ c ∈ allClaims l, (b' c - crhShare l (crhW l eps b) c) ^ 2

theorem crh_near_descent (hC : EveryoneClaims l) (hl : l ≠ []) {eps κ : ℝ} (he : 0 < eps) {b b' : V × X → ℝ}
    (hoff : crhOff l eps b b' ≤ κ ^ 2 / 2) (hfar : κ ^ 2 ≤ crhOff l eps b b) :
    crhPsi l eps b' + eps * (κ ^ 2 / 2) ≤ crhPsi l eps b := by
  have hne := allSources_nonempty hl
  have hW : eps ≤ ∑ r ∈ allSources l, crhW l eps b r := by
    obtain ⟨s, hs⟩ := hne
    exact (crhW_ge hl he b hs).trans (Finset.single_le_sum (f := fun r => crhW l eps b r) (fun r hr => he.le.trans (crhW_ge hl he b hr)) hs)
  have h1 := objective_trust hl he b' (crhW_admissible hl he b)
  have h2 := objective_belief hC eps (t := crhW l eps b) (by linarith) b
  have h3 := objective_belief hC eps (t := crhW l eps b) (by linarith) b'
  change objective l eps (crhW l eps b) b = _ + _ * crhOff l eps b b at h2
  change objective l eps (crhW l eps b) b' = _ + _ * crhOff l eps b b' at h3
  unfold crhPsi
  have h4 := mul_le_mul_of_nonneg_left (show κ ^ 2 / 2 ≤ crhOff l eps b b - crhOff l eps b b' by linarith) (he.le.trans hW)
  have h5 := mul_le_mul_of_nonneg_right hW (show 0 ≤ κ ^ 2 / 2 by positivity)
  linarith

/-! ### Beliefs up to 2 -/

theorem loss_le2 (hC : EveryoneClaims l) {s : S} (hs : s ∈ allSources l) {b : V × X → ℝ} (hb : ∀ c ∈ allClaims l, 0 ≤ b c ∧ b c ≤ 2) :
    loss l b s ≤ 4 * (allClaims l).card := by
  rw [loss_complete hC hs]
  have : ∑ d ∈ allClaims l, (b d - hit l s d) ^ 2 ≤ ∑ _d ∈ allClaims l, (4 : ℝ) := by
    refine Finset.sum_le_sum fun d hd => ?_
    have h1 := hit_range (l := l) s d
    have h2 := hb d hd
    nlinarith
  rw [Finset.sum_const, nsmul_eq_mul] at this
  linarith

theorem crhPsi_first (hC : EveryoneClaims l) (hl : l ≠ []) {eps : ℝ} (he : 0 < eps) {b : V × X → ℝ}
    (hb : ∀ c ∈ allClaims l, 0 ≤ b c ∧ b c ≤ 2) :
    crhPsi l eps b ≤ ((allSources l).card * (eps + 4 * (allClaims l).card)) * (eps + Real.log (allSources l).card) := by
  have hn : (0 : ℝ) < (allSources l).card := by exact_mod_cast (allSources_nonempty hl).card_pos
  have hn1 : (1 : ℝ) ≤ (allSources l).card := by exact_mod_cast (allSources_nonempty hl).card_pos
  have h2 := objective_trust hl he b (t := fun _ => eps + Real.log (allSources l).card) (by
    unfold Admissible
    rw [Finset.sum_const, nsmul_eq_mul, add_sub_cancel_left, Real.exp_neg, Real.exp_log hn, mul_inv_cancel₀ hn.ne'])
  refine h2.trans ?_
  unfold objective
  rw [← Finset.mul_sum, mul_comm]
  have hlog := Real.log_nonneg hn1
  refine mul_le_mul_of_nonneg_right ?_ (by linarith)
  have : ∑ s ∈ allSources l, (eps + loss l b s) ≤ ∑ _s ∈ allSources l, (eps + 4 * (allClaims l).card) :=
    Finset.sum_le_sum fun s hs => by linarith [loss_le2 hC hs hb]
  rwa [Finset.sum_const, nsmul_eq_mul] at this

/-- The weights change little if the beliefs do: the halves of beliefs up to 2 are beliefs up to 1. -/
theorem crhW_change2 (hC : EveryoneClaims l) (hl : l ≠ []) {eps : ℝ} (he : 0 < eps) {s : S} (hs : s ∈ allSources l) {b b' : V × X → ℝ} {δ : ℝ}
    (hb : ∀ c ∈ allClaims l, 0 ≤ b c ∧ b c ≤ 2) (hb' : ∀ c ∈ allClaims l, 0 ≤ b' c ∧ b' c ≤ 2)
    (hd : ∀ c ∈ allClaims l, |b c - b' c| ≤ δ) : |crhW l eps b s - crhW l eps b' s| ≤ 8 * (allClaims l).card * δ / eps := by
  have hn : (0 : ℝ) < (allSources l).card := by exact_mod_cast (allSources_nonempty hl).card_pos
  have hge : ∀ (b : V × X → ℝ) (r : S), eps ≤ eps + loss l b r := fun b r => by linarith [loss_nonneg (l := l) b r]
  have hA : ∀ b : V × X → ℝ, (allSources l).card * eps ≤ ∑ r ∈ allSources l, (eps + loss l b r) := by
    intro b
    have : ∑ _r ∈ allSources l, eps ≤ ∑ r ∈ allSources l, (eps + loss l b r) := Finset.sum_le_sum fun r _ => hge b r
    rwa [Finset.sum_const, nsmul_eq_mul] at this
  have hch : ∀ r ∈ allSources l, |loss l b r - loss l b' r| ≤ (allClaims l).card * (4 * δ) := by
    intro r hr
    rw [loss_complete hC hr, loss_complete hC hr, ← Finset.sum_sub_distrib]
    refine (Finset.abs_sum_le_sum_abs _ _).trans ?_
    have : ∑ d ∈ allClaims l, |(b d - hit l r d) ^ 2 - (b' d - hit l r d) ^ 2| ≤ ∑ _d ∈ allClaims l, 4 * δ := by
      refine Finset.sum_le_sum fun c hc => ?_
      have h1 := hit_range (l := l) r c
      have h2 := hb c hc
      have h3 := hb' c hc
      have h4 : |b c + b' c - 2 * hit l r c| ≤ 4 := by rw [abs_le]; constructor <;> linarith
      rw [show (b c - hit l r c) ^ 2 - (b' c - hit l r c) ^ 2 = (b c + b' c - 2 * hit l r c) * (b c - b' c) by ring, abs_mul]
      exact mul_le_mul h4 (hd c hc) (abs_nonneg _) (by norm_num)
    rwa [Finset.sum_const, nsmul_eq_mul] at this
  have h1 := log_lipschitz he (hge b s) (hge b' s)
  have h2 := log_lipschitz (mul_pos hn he) (hA b) (hA b')
  have h3 : |(eps + loss l b s) - (eps + loss l b' s)| ≤ (allClaims l).card * (4 * δ) := by
    rw [show eps + loss l b s - (eps + loss l b' s) = loss l b s - loss l b' s by ring]
    exact hch s hs
  have h4 : |(∑ r ∈ allSources l, (eps + loss l b r)) - ∑ r ∈ allSources l, (eps + loss l b' r)| ≤
      (allSources l).card * ((allClaims l).card * (4 * δ)) := by
    rw [← Finset.sum_sub_distrib]
    refine (Finset.abs_sum_le_sum_abs _ _).trans ?_
    have : ∑ r ∈ allSources l, |eps + loss l b r - (eps + loss l b' r)| ≤ ∑ _r ∈ allSources l, (allClaims l).card * (4 * δ) := by
      refine Finset.sum_le_sum fun r hr => ?_
      rw [show eps + loss l b r - (eps + loss l b' r) = loss l b r - loss l b' r by ring]
      exact hch r hr
    rwa [Finset.sum_const, nsmul_eq_mul] at this
  have h5 := h1.trans (div_le_div_of_nonneg_right h3 he.le)
  have h6 := h2.trans (div_le_div_of_nonneg_right h4 (mul_pos hn he).le)
  rw [mul_div_mul_left _ _ hn.ne'] at h6
  have hpos : ∀ b : V × X → ℝ, 0 < ∑ r ∈ allSources l, (eps + loss l b r) := fun b => (mul_pos hn he).trans_le (hA b)
  unfold crhW
  rw [Real.log_div (he.trans_le (hge b s)).ne' (hpos b).ne', Real.log_div (he.trans_le (hge b' s)).ne' (hpos b').ne']
  have e : 8 * (allClaims l).card * δ / eps = (allClaims l).card * (4 * δ) / eps + (allClaims l).card * (4 * δ) / eps := by ring
  rw [e]
  rw [abs_le] at h5 h6 ⊢
  constructor <;> linarith [h5.1, h5.2, h6.1, h6.2]

/-- Among enough iterations computed with small errors there are two in succession with nearly the same trust scores. -/
theorem crh_near_settles (hC : EveryoneClaims l) (hl : l ≠ []) {eps κ : ℝ} (he : 0 < eps) (hκ : 0 < κ)
    (hτ : crhTau (allSources l).card (allClaims l).card ≤ 1 / 8)
    (hη : 2 * (allClaims l).card * crhEta (allSources l).card (allClaims l).card ^ 2 ≤ κ ^ 2) {K : Nat}
    (hK : 2 * (((allSources l).card * (eps + 4 * (allClaims l).card)) * (eps + Real.log (allSources l).card)) < K * (eps * κ ^ 2))
    {q : Nat → Scores S V X} (hq : ∀ j < K + 1, CrhAccurate l eps (q j).2 (q (j + 1)))
    (hb : ∀ j ≤ K + 1, ∀ c ∈ allClaims l, 0 ≤ (q j).2 c ∧ (q j).2 c ≤ 2)
    (ht : ∀ j < K + 1, ∀ s ∈ allSources l, 0 < (q (j + 1)).1 s) :
    ∃ j < K, ∀ s ∈ allSources l, |(q (j + 1)).1 s - (q (j + 2)).1 s| ≤
      8 * (allClaims l).card * (κ + crhEta (allSources l).card (allClaims l).card) / eps +
        2 * crhTau (allSources l).card (allClaims l).card := by
  have heta : 0 ≤ crhEta (allSources l).card (allClaims l).card := by unfold crhEta; positivity
  have hbel : ∀ j < K + 1, ∀ c ∈ allClaims l, |(q (j + 1)).2 c - crhShare l (crhW l eps (q j).2) c| ≤
      crhEta (allSources l).card (allClaims l).card := fun j hj c hc => crh_near_belief hl he hτ (hq j hj) (ht j hj) hc
  by_cases hex : ∃ j < K, crhOff l eps (q j).2 (q j).2 < κ ^ 2
  · obtain ⟨j, hj, hoff⟩ := hex
    refine ⟨j, hj, fun s hs => ?_⟩
    have hclose : ∀ c ∈ allClaims l, |(q j).2 c - (q (j + 1)).2 c| ≤ κ + crhEta (allSources l).card (allClaims l).card := by
      intro c hc
      have h1 : |(q j).2 c - crhShare l (crhW l eps (q j).2) c| ≤ κ := by
        refine (Real.abs_le_sqrt (Finset.single_le_sum (f := fun c => ((q j).2 c - crhShare l (crhW l eps (q j).2) c) ^ 2)
          (fun _ _ => sq_nonneg _) hc)).trans ?_
        exact (Real.sqrt_le_left hκ.le).2 hoff.le
      have h2 := hbel j (by omega) c hc
      rw [abs_sub_comm] at h2
      exact (abs_sub_le _ _ _).trans (add_le_add h1 h2)
    have h3 := crhW_change2 hC hl he hs (hb j (by omega)) (hb (j + 1) (by omega)) hclose
    have h4 : |(q (j + 1)).1 s - crhW l eps (q j).2 s| ≤ crhTau (allSources l).card (allClaims l).card := (hq j (by omega)).trust s hs
    have h5 : |(q (j + 2)).1 s - crhW l eps (q (j + 1)).2 s| ≤ crhTau (allSources l).card (allClaims l).card :=
      (hq (j + 1) (by omega)).trust s hs
    rw [abs_le] at *
    constructor <;> linarith [h3.1, h3.2, h4.1, h4.2, h5.1, h5.2]
  · exfalso
    push Not at hex
    have hdrop : ∀ k ≤ K, crhPsi l eps (q k).2 + k * (eps * (κ ^ 2 / 2)) ≤ crhPsi l eps (q 0).2 := by
      intro k
      induction k with
      | zero => intro _; simp
      | succ k ih =>
        intro hk
        have h1 := ih (by omega)
        have h2 : crhOff l eps (q k).2 (q (k + 1)).2 ≤ κ ^ 2 / 2 := by
          have : crhOff l eps (q k).2 (q (k + 1)).2 ≤ ∑ _c ∈ allClaims l, crhEta (allSources l).card (allClaims l).card ^ 2 := by
            refine Finset.sum_le_sum fun c hc => ?_
            rw [← sq_abs]
            exact pow_le_pow_left₀ (abs_nonneg _) (hbel k (by omega) c hc) 2
          rw [Finset.sum_const, nsmul_eq_mul] at this
          linarith
        have h3 := crh_near_descent hC hl he h2 (hex k (by omega))
        push_cast
        linarith
    have h1 := hdrop K le_rfl
    have h2 := crhPsi_nonneg hl he (q K).2
    have h3 := crhPsi_first hC hl he (hb 0 (by omega))
    nlinarith

end TD
