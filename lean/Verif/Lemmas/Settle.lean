import Verif.Lemmas.Support
/-!
# TruthFinder without implications lowers an energy

The beliefs of the next iteration minimise `energy` for the given trust, the trust minimises it
for the given beliefs.
-/

namespace TD
open Spec Ex Filter Topology
attribute [-instance] instBEqProd

/-! ### Distances of vectors that are close -/

theorem distance_le {A : Type} {F : Finset A} (hF : F.Nonempty) {v w : A → ℝ} {lo δ : ℝ} (hlo : 0 < lo) (hδ : 0 ≤ δ)
    (hv : ∀ a ∈ F, lo ≤ v a) (hw : ∀ a ∈ F, lo ≤ w a) (hd : ∀ a ∈ F, |v a - w a| ≤ δ) (hs : δ ≤ 2 * lo ^ 2) (m : Measure) :
    distance m F v w ≤ F.card * δ := by
  have hc : (1 : ℝ) ≤ F.card := by exact_mod_cast hF.card_pos
  have hle : δ ≤ F.card * δ := le_mul_of_one_le_left hδ hc
  have hsq : ∑ a ∈ F, (v a - w a) ^ 2 ≤ F.card * δ ^ 2 := by
    have : ∑ a ∈ F, (v a - w a) ^ 2 ≤ ∑ _a ∈ F, δ ^ 2 := Finset.sum_le_sum fun a ha => by
      rw [← sq_abs]; exact pow_le_pow_left₀ (abs_nonneg _) (hd a ha) 2
    rwa [Finset.sum_const, nsmul_eq_mul] at this
  cases m with
  | l1 =>
    have : ∑ a ∈ F, |v a - w a| ≤ ∑ _a ∈ F, δ := Finset.sum_le_sum hd
    rwa [Finset.sum_const, nsmul_eq_mul] at this
  | l2 =>
    show Real.sqrt _ ≤ _
    rw [Real.sqrt_le_left (by positivity)]
    refine hsq.trans ?_
    rw [mul_pow]
    exact mul_le_mul_of_nonneg_right (by nlinarith) (sq_nonneg δ)
  | lInf =>
    refine le_trans ?_ hle
    show top F _ ≤ δ
    obtain ⟨a, ha, e⟩ := top_mem (f := fun a => |v a - w a|) hF
    rw [← e]
    exact hd a ha
  | cosine =>
    refine le_trans ?_ hle
    have hpos : ∀ u : A → ℝ, (∀ a ∈ F, lo ≤ u a) → F.card * lo ^ 2 ≤ ∑ a ∈ F, u a ^ 2 := by
      intro u hu
      have : ∑ _a ∈ F, lo ^ 2 ≤ ∑ a ∈ F, u a ^ 2 := Finset.sum_le_sum fun a ha => pow_le_pow_left₀ hlo.le (hu a ha) 2
      rwa [Finset.sum_const, nsmul_eq_mul] at this
    have h0 : (0 : ℝ) < F.card * lo ^ 2 := by positivity
    have hA := hpos v hv
    have hB := hpos w hw
    have sA : 0 < len2 F v := Real.sqrt_pos.2 (h0.trans_le hA)
    have sB : 0 < len2 F w := Real.sqrt_pos.2 (h0.trans_le hB)
    have eA : len2 F v ^ 2 = ∑ a ∈ F, v a ^ 2 := Real.sq_sqrt (h0.le.trans hA)
    have eB : len2 F w ^ 2 = ∑ a ∈ F, w a ^ 2 := Real.sq_sqrt (h0.le.trans hB)
    simp only [distance, sA.ne', sB.ne', or_self, if_false, clamp]
    refine max_le hδ ((min_le_right _ _).trans ?_)
    have hprod : F.card * lo ^ 2 ≤ len2 F v * len2 F w := by
      rw [← abs_of_pos h0, ← abs_of_pos (mul_pos sA sB), ← sq_le_sq, mul_pow (len2 F v), eA, eB, sq (_ * _)]
      exact mul_le_mul hA hB h0.le (h0.le.trans hA)
    have hsum : ∑ a ∈ F, (v a - w a) ^ 2 = len2 F v ^ 2 + len2 F w ^ 2 - 2 * ∑ a ∈ F, v a * w a := by
      rw [eA, eB, Finset.mul_sum, ← Finset.sum_add_distrib, ← Finset.sum_sub_distrib]
      exact Finset.sum_congr rfl fun a _ => by ring
    rw [sub_le_iff_le_add, ← sub_le_iff_le_add', le_div_iff₀ (mul_pos sA sB)]
    have h1 : F.card * δ ^ 2 ≤ 2 * (δ * (F.card * lo ^ 2)) := by
      have := mul_le_mul_of_nonneg_left hs (mul_nonneg (Nat.cast_nonneg (α := ℝ) F.card) hδ)
      nlinarith
    have h2 := mul_le_mul_of_nonneg_left hprod hδ
    nlinarith [sq_nonneg (len2 F v - len2 F w)]

/-! ### Entropy -/

/-- Minus the entropy of a coin. -/
noncomputable def coin (y : ℝ) : ℝ := y * Real.log y + (1 - y) * Real.log (1 - y)

theorem kl_part {p q : ℝ} (hp : 0 < p) (hq : 0 < q) :
    p * (Real.log q - Real.log p) ≤ 2 * (Real.sqrt p * Real.sqrt q) - 2 * p := by
  have hp' := Real.sqrt_pos.2 hp
  have hq' := Real.sqrt_pos.2 hq
  have e : Real.log q - Real.log p = 2 * Real.log (Real.sqrt q / Real.sqrt p) := by
    rw [Real.log_div hq'.ne' hp'.ne', Real.log_sqrt hq.le, Real.log_sqrt hp.le]; ring
  have h := Real.log_le_sub_one_of_pos (div_pos hq' hp')
  have hpp : Real.sqrt p * Real.sqrt p = p := Real.mul_self_sqrt hp.le
  rw [e]
  have h1 : p * (2 * Real.log (Real.sqrt q / Real.sqrt p)) ≤ p * (2 * (Real.sqrt q / Real.sqrt p - 1)) :=
    mul_le_mul_of_nonneg_left (by linarith) hp.le
  refine h1.trans (le_of_eq ?_)
  generalize Real.sqrt p = a at *
  generalize Real.sqrt q = b at *
  rw [← hpp]
  field_simp

theorem kl_sq {p q : ℝ} (hp : 0 < p) (hp' : p < 1) (hq : 0 < q) (hq' : q < 1) :
    (p - q) ^ 2 ≤ coin p - p * Real.log q - (1 - p) * Real.log (1 - q) := by
  have h1 := kl_part hp hq
  have h2 := kl_part (show 0 < 1 - p by linarith) (show 0 < 1 - q by linarith)
  obtain ⟨a, ha, ea⟩ : ∃ a : ℝ, 0 < a ∧ a * a = p := ⟨_, Real.sqrt_pos.2 hp, Real.mul_self_sqrt hp.le⟩
  have ra : Real.sqrt p = a := by rw [← ea]; exact Real.sqrt_mul_self ha.le
  obtain ⟨b, hb, eb⟩ : ∃ b : ℝ, 0 < b ∧ b * b = q := ⟨_, Real.sqrt_pos.2 hq, Real.mul_self_sqrt hq.le⟩
  have rb : Real.sqrt q = b := by rw [← eb]; exact Real.sqrt_mul_self hb.le
  obtain ⟨c, hc, ec⟩ : ∃ c : ℝ, 0 < c ∧ c * c = 1 - p :=
    ⟨_, Real.sqrt_pos.2 (by linarith), Real.mul_self_sqrt (by linarith)⟩
  have rc : Real.sqrt (1 - p) = c := by rw [← ec]; exact Real.sqrt_mul_self hc.le
  obtain ⟨d, hd, ed⟩ : ∃ d : ℝ, 0 < d ∧ d * d = 1 - q :=
    ⟨_, Real.sqrt_pos.2 (by linarith), Real.mul_self_sqrt (by linarith)⟩
  have rd : Real.sqrt (1 - q) = d := by rw [← ed]; exact Real.sqrt_mul_self hd.le
  rw [ra, rb] at h1
  rw [rc, rd] at h2
  have hX : (p - q) ^ 2 ≤ (a - b) ^ 2 * (2 * (p + q)) := by
    have e : (p - q) ^ 2 = (a - b) ^ 2 * (a + b) ^ 2 := by rw [← ea, ← eb]; ring
    rw [e]
    refine mul_le_mul_of_nonneg_left ?_ (sq_nonneg _)
    nlinarith [sq_nonneg (a - b)]
  have hY : (p - q) ^ 2 ≤ (c - d) ^ 2 * (2 * (2 - (p + q))) := by
    have e : (p - q) ^ 2 = (c - d) ^ 2 * (c + d) ^ 2 := by
      have : p - q = (d - c) * (d + c) := by
        have : (d - c) * (d + c) = d * d - c * c := by ring
        rw [this, ec, ed]; ring
      rw [this]; ring
    rw [e]
    refine mul_le_mul_of_nonneg_left ?_ (sq_nonneg _)
    nlinarith [sq_nonneg (c - d)]
  have hXY : (p - q) ^ 2 ≤ (a - b) ^ 2 + (c - d) ^ 2 := by
    have hm : 0 < p + q := by linarith
    have hm' : 0 < 2 - (p + q) := by linarith
    generalize (p - q) ^ 2 = e at hX hY ⊢
    have hx : 0 ≤ (a - b) ^ 2 := sq_nonneg _
    have hy : 0 ≤ (c - d) ^ 2 := sq_nonneg _
    generalize (a - b) ^ 2 = x at hX hx ⊢
    generalize (c - d) ^ 2 = y at hY hy ⊢
    generalize p + q = k at hX hY hm hm'
    have h1 := mul_le_mul_of_nonneg_right hX hm'.le
    have h2 := mul_le_mul_of_nonneg_right hY hm.le
    have h3 : 2 * e ≤ 2 * (k * (2 - k)) * (x + y) := by nlinarith
    have h4 : k * (2 - k) ≤ 1 := by nlinarith [sq_nonneg (k - 1)]
    nlinarith [mul_le_mul_of_nonneg_right h4 (add_nonneg hx hy)]
  unfold coin
  nlinarith

/-- The logistic function minimises `coin y - z * y`. -/
theorem coin_min {y : ℝ} (hy : 0 < y) (hy' : y < 1) (z : ℝ) :
    coin (1 / (1 + Real.exp (-z))) - z * (1 / (1 + Real.exp (-z))) + (y - 1 / (1 + Real.exp (-z))) ^ 2 ≤ coin y - z * y := by
  have hE := Real.exp_pos (-z)
  have hq := sigmoid_pos (-z)
  have hq' := sigmoid_lt (-z)
  have e1 : Real.log (1 / (1 + Real.exp (-z))) = -Real.log (1 + Real.exp (-z)) := by rw [one_div, Real.log_inv]
  have e2 : Real.log (1 - 1 / (1 + Real.exp (-z))) = -z - Real.log (1 + Real.exp (-z)) := by
    rw [show 1 - 1 / (1 + Real.exp (-z)) = Real.exp (-z) / (1 + Real.exp (-z)) by field_simp; ring,
      Real.log_div hE.ne' (by positivity), Real.log_exp]
  have h := kl_sq hy hy' hq hq'
  have e3 : coin (1 / (1 + Real.exp (-z))) = 1 / (1 + Real.exp (-z)) * Real.log (1 / (1 + Real.exp (-z))) +
    (1 - 1 / (1 + Real.exp (-z))) * Real.log (1 - 1 / (1 + Real.exp (-z))) := rfl
  rw [e3]
  rw [e1, e2] at h ⊢
  generalize 1 / (1 + Real.exp (-z)) = q at *
  generalize Real.log (1 + Real.exp (-z)) = L at *
  nlinarith

/-- A coin has at most one bit. -/
theorem coin_ge {y : ℝ} (hy : 0 < y) (hy' : y < 1) : coin (1 / 2) ≤ coin y := by
  have := coin_min hy hy' 0
  simp only [neg_zero, Real.exp_zero, zero_mul, sub_zero] at this
  norm_num at this ⊢
  nlinarith [sq_nonneg (y - 1 / 2)]

/-! ### The energy -/

variable {S V X : Type} [DecidableEq S] [DecidableEq V] [DecidableEq X] {l : List (S × V × X)}

/-- What TruthFinder without implications minimises: `x` is `-log (1 - trust)`, `y` the belief. -/
noncomputable def energy (l : List (S × V × X)) (gamma : ℝ) (x : S → ℝ) (y : V × X → ℝ) : ℝ :=
  gamma * (∑ c ∈ allClaims l, ∑ s ∈ sourcesOf l c, (x s * (1 - y c) + Real.exp (-x s))) + ∑ c ∈ allClaims l, coin (y c)

/-- Beliefs from `-log (1 - trust)`. -/
noncomputable def logit (l : List (S × V × X)) (gamma : ℝ) (x : S → ℝ) (c : V × X) : ℝ :=
  1 / (1 + Real.exp (-(gamma * ∑ s ∈ sourcesOf l c, x s)))

/-- `-log (1 - trust)` from beliefs. -/
noncomputable def tau (l : List (S × V × X)) (y : V × X → ℝ) (s : S) : ℝ :=
  -Real.log (1 - (∑ c ∈ claimsOf l s, y c) / nClaims l s)

theorem energy_belief (gamma : ℝ) (x : S → ℝ) {y : V × X → ℝ} (hy : ∀ c ∈ allClaims l, 0 < y c ∧ y c < 1) :
    energy l gamma x (logit l gamma x) + ∑ c ∈ allClaims l, (y c - logit l gamma x c) ^ 2 ≤ energy l gamma x y := by
  have e : ∀ y : V × X → ℝ, energy l gamma x y = ∑ c ∈ allClaims l, (gamma * (∑ s ∈ sourcesOf l c, (x s + Real.exp (-x s))) +
      (coin (y c) - (gamma * ∑ s ∈ sourcesOf l c, x s) * y c)) := by
    intro y
    unfold energy
    rw [Finset.mul_sum, ← Finset.sum_add_distrib]
    refine Finset.sum_congr rfl fun c _ => ?_
    have : ∑ s ∈ sourcesOf l c, (x s * (1 - y c) + Real.exp (-x s)) =
        ∑ s ∈ sourcesOf l c, (x s + Real.exp (-x s)) - (∑ s ∈ sourcesOf l c, x s) * y c := by
      rw [Finset.sum_mul, ← Finset.sum_sub_distrib]
      exact Finset.sum_congr rfl fun s _ => by ring
    rw [this]; ring
  rw [e, e, ← Finset.sum_add_distrib]
  refine Finset.sum_le_sum fun c hc => ?_
  have := coin_min (hy c hc).1 (hy c hc).2 (gamma * ∑ s ∈ sourcesOf l c, x s)
  unfold logit
  linarith

theorem energy_trust {gamma : ℝ} (hg : 0 ≤ gamma) (x : S → ℝ) {y : V × X → ℝ} (hy : ∀ c ∈ claims l, 0 < y c ∧ y c < 1) :
    energy l gamma (tau l y) y ≤ energy l gamma x y := by
  unfold energy
  refine add_le_add_left (mul_le_mul_of_nonneg_left ?_ hg) _
  rw [sum_swap fun c s => tau l y s * (1 - y c) + Real.exp (-tau l y s), sum_swap fun c s => x s * (1 - y c) + Real.exp (-x s)]
  refine Finset.sum_le_sum fun s hs => ?_
  have hs' := (mem_allSources l).1 hs
  obtain ⟨-, hm⟩ := mean_pos_lt hy hs'
  have hn := nClaims_pos l hs'
  have e : ∀ u : ℝ, ∑ c ∈ claimsOf l s, (u * (1 - y c) + Real.exp (-u)) =
      nClaims l s * (u * (1 - (∑ c ∈ claimsOf l s, y c) / nClaims l s) + Real.exp (-u)) := by
    intro u
    rw [Finset.sum_add_distrib, Finset.sum_const, ← Finset.mul_sum, Finset.sum_sub_distrib, Finset.sum_const]
    have : nClaims l s * ((∑ c ∈ claimsOf l s, y c) / nClaims l s) = ∑ c ∈ claimsOf l s, y c := by field_simp
    have h2 : ((claimsOf l s).card : ℝ) = nClaims l s := rfl
    simp only [nsmul_eq_mul, h2]
    linear_combination u * this
  rw [e, e]
  refine mul_le_mul_of_nonneg_left ?_ hn.le
  unfold tau
  have hpos : 0 < 1 - (∑ c ∈ claimsOf l s, y c) / nClaims l s := by linarith
  generalize 1 - (∑ c ∈ claimsOf l s, y c) / nClaims l s = k at *
  rw [neg_neg, Real.exp_log hpos]
  have h1 := Real.add_one_le_exp (-x s - Real.log k)
  have h2 : Real.exp (-x s - Real.log k) * k = Real.exp (-x s) := by
    rw [Real.exp_sub, Real.exp_log hpos]; field_simp
  have h3 := mul_le_mul_of_nonneg_right h1 hpos.le
  rw [h2] at h3
  nlinarith

theorem energy_lower {gamma : ℝ} (hg : 0 ≤ gamma) {x : S → ℝ} {y : V × X → ℝ} (hx : ∀ s ∈ sources l, 0 ≤ x s)
    (hy : ∀ c ∈ allClaims l, 0 < y c ∧ y c < 1) : (allClaims l).card * coin (1 / 2) ≤ energy l gamma x y := by
  unfold energy
  have h1 : 0 ≤ gamma * ∑ c ∈ allClaims l, ∑ s ∈ sourcesOf l c, (x s * (1 - y c) + Real.exp (-x s)) :=
    mul_nonneg hg (Finset.sum_nonneg fun c hc => Finset.sum_nonneg fun s hs =>
      add_nonneg (mul_nonneg (hx s (mem_sources_of_sourcesOf l hs)) (by linarith [(hy c hc).2])) (Real.exp_pos _).le)
  have h2 : ∑ _c ∈ allClaims l, coin (1 / 2) ≤ ∑ c ∈ allClaims l, coin (y c) :=
    Finset.sum_le_sum fun c hc => coin_ge (hy c hc).1 (hy c hc).2
  rw [Finset.sum_const, nsmul_eq_mul] at h2
  linarith

theorem energy_half (gamma x0 : ℝ) : energy l gamma (fun _ => x0) (fun _ => 1 / 2) =
    gamma * ((∑ c ∈ allClaims l, nSources l c) * (x0 / 2 + Real.exp (-x0))) + (allClaims l).card * coin (1 / 2) := by
  unfold energy
  simp only [Finset.sum_const, nsmul_eq_mul, Finset.sum_mul]
  congr 2
  refine Finset.sum_congr rfl fun c _ => ?_
  show ((sourcesOf l c).card : ℝ) * _ = ((sourcesOf l c).card : ℝ) * _
  ring

end TD
