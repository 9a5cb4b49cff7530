import Verif.Spec.Objective
import Verif.Props.Settle
/-!
# C90: Investment concentrates, and settles

Exact arithmetic.  Up to scaling an iteration is the growth transform of Baum and Eagon for the
sum of powers of the investments.
-/

namespace TD
open Spec Ex Filter Topology
attribute [-instance] instBEqProd

variable {S V X : Type} [DecidableEq S] [DecidableEq V] [DecidableEq X] {l : List (S × V × X)}

/-! ### Inequalities -/

theorem gibbs {A : Type} {F : Finset A} (hF : F.Nonempty) {a x : A → ℝ} (ha : ∀ i ∈ F, 0 < a i) (hx : ∀ i ∈ F, 0 < x i) :
    ∑ i ∈ F, a i * Real.log (x i) ≤ (∑ i ∈ F, a i) * Real.log ((∑ i ∈ F, a i * x i) / ∑ i ∈ F, a i) := by
  have hA : 0 < ∑ i ∈ F, a i := Finset.sum_pos ha hF
  have hB : 0 < ∑ i ∈ F, a i * x i := Finset.sum_pos (fun i hi => mul_pos (ha i hi) (hx i hi)) hF
  generalize hR : (∑ i ∈ F, a i * x i) / ∑ i ∈ F, a i = R
  have hRpos : 0 < R := by rw [← hR]; exact div_pos hB hA
  have key : ∀ i ∈ F, a i * Real.log (x i) ≤ a i * Real.log R + (a i * x i / R - a i) := by
    intro i hi
    have h := Real.log_le_sub_one_of_pos (div_pos (hx i hi) hRpos)
    rw [Real.log_div (hx i hi).ne' hRpos.ne'] at h
    have := mul_le_mul_of_nonneg_left h (ha i hi).le
    have e : a i * (x i / R - 1) = a i * x i / R - a i := by ring
    rw [e] at this
    linarith
  refine (Finset.sum_le_sum key).trans (le_of_eq ?_)
  rw [Finset.sum_add_distrib, Finset.sum_sub_distrib, ← Finset.sum_mul, ← Finset.sum_div]
  have : (∑ i ∈ F, a i * x i) / R = ∑ i ∈ F, a i := by rw [← hR]; field_simp
  rw [this]; ring

/-- A bound of Pinsker's kind. -/
theorem kl_bound {A : Type} {F : Finset A} {p q : A → ℝ} (hp : ∀ i ∈ F, 0 < p i) (hq : ∀ i ∈ F, 0 < q i)
    (hp1 : ∑ i ∈ F, p i = 1) (hq1 : ∑ i ∈ F, q i = 1) {i : A} (hi : i ∈ F) :
    (p i - q i) ^ 2 ≤ 4 * ∑ i ∈ F, p i * (Real.log (p i) - Real.log (q i)) := by
  have h1 : ∑ i ∈ F, (Real.sqrt (p i) - Real.sqrt (q i)) ^ 2 ≤ ∑ i ∈ F, p i * (Real.log (p i) - Real.log (q i)) := by
    have : ∑ i ∈ F, (Real.sqrt (p i) - Real.sqrt (q i)) ^ 2 ≤ ∑ i ∈ F, (p i * (Real.log (p i) - Real.log (q i)) + (q i - p i)) := by
      refine Finset.sum_le_sum fun i hi => ?_
      have := kl_part (hp i hi) (hq i hi)
      have e1 := Real.sq_sqrt (hp i hi).le
      have e2 := Real.sq_sqrt (hq i hi).le
      nlinarith
    rw [Finset.sum_add_distrib, Finset.sum_sub_distrib, hp1, hq1, sub_self, add_zero] at this
    exact this
  have h2 := Finset.single_le_sum (f := fun i => (Real.sqrt (p i) - Real.sqrt (q i)) ^ 2) (fun _ _ => sq_nonneg _) hi
  have hle : ∀ {f : A → ℝ}, (∀ i ∈ F, 0 < f i) → ∑ i ∈ F, f i = 1 → f i ≤ 1 := fun {f} h e =>
    e ▸ Finset.single_le_sum (f := f) (fun j hj => (h j hj).le) hi
  have s1 : Real.sqrt (p i) ≤ 1 := Real.sqrt_le_one.2 (hle hp hp1)
  have s2 : Real.sqrt (q i) ≤ 1 := Real.sqrt_le_one.2 (hle hq hq1)
  have e : (p i - q i) ^ 2 = (Real.sqrt (p i) - Real.sqrt (q i)) ^ 2 * (Real.sqrt (p i) + Real.sqrt (q i)) ^ 2 := by
    have e1 := Real.sq_sqrt (hp i hi).le
    have e2 := Real.sq_sqrt (hq i hi).le
    rw [← mul_pow]
    congr 1
    nlinarith
  have h3 : (Real.sqrt (p i) + Real.sqrt (q i)) ^ 2 ≤ 4 := by
    have := Real.sqrt_nonneg (p i)
    have := Real.sqrt_nonneg (q i)
    nlinarith
  rw [e]
  calc (Real.sqrt (p i) - Real.sqrt (q i)) ^ 2 * (Real.sqrt (p i) + Real.sqrt (q i)) ^ 2
      ≤ (Real.sqrt (p i) - Real.sqrt (q i)) ^ 2 * 4 := mul_le_mul_of_nonneg_left h3 (sq_nonneg _)
    _ ≤ _ := by
      have := h2.trans h1
      linarith

theorem distance_le_unit {A : Type} {F : Finset A} {v w : A → ℝ} {δ : ℝ} (hδ : 0 ≤ δ)
    (hv : ∃ a ∈ F, v a = 1) (hw : ∃ a ∈ F, w a = 1) (hd : ∀ a ∈ F, |v a - w a| ≤ δ) (hs : δ ≤ 2) (m : Measure) :
    distance m F v w ≤ F.card * δ := by
  have hF : F.Nonempty := ⟨hv.choose, hv.choose_spec.1⟩
  have hc : (1 : ℝ) ≤ F.card := by exact_mod_cast hF.card_pos
  have hle : δ ≤ F.card * δ := le_mul_of_one_le_left hδ hc
  have hsq : ∑ a ∈ F, (v a - w a) ^ 2 ≤ F.card * δ ^ 2 := by
    have : ∑ a ∈ F, (v a - w a) ^ 2 ≤ ∑ _a ∈ F, δ ^ 2 := Finset.sum_le_sum fun a ha => by
      rw [← sq_abs]; exact pow_le_pow_left₀ (abs_nonneg _) (hd a ha) 2
    rwa [Finset.sum_const, nsmul_eq_mul] at this
  cases m with
  | l1 =>
    have : ∑ a ∈ F, |v a - w a| ≤ ∑ _a ∈ F, δ := Finset.sum_le_sum hd
    rwa [Finset.sum_const, nsmul_eq_mul] at this
  | l2 =>
    show Real.sqrt _ ≤ _
    rw [Real.sqrt_le_left (by positivity)]
    refine hsq.trans ?_
    rw [mul_pow]
    exact mul_le_mul_of_nonneg_right (by nlinarith) (sq_nonneg δ)
  | lInf =>
    refine le_trans ?_ hle
    show top F _ ≤ δ
    obtain ⟨a, ha, e⟩ := top_mem (f := fun a => |v a - w a|) hF
    rw [← e]
    exact hd a ha
  | cosine =>
    have hpos : ∀ u : A → ℝ, (∃ a ∈ F, u a = 1) → 1 ≤ ∑ a ∈ F, u a ^ 2 := by
      rintro u ⟨a, ha, e⟩
      have := Finset.single_le_sum (f := fun a => u a ^ 2) (fun _ _ => sq_nonneg _) ha
      simpa [e] using this
    have hA := hpos v hv
    have hB := hpos w hw
    have sA : 1 ≤ len2 F v := Real.one_le_sqrt.2 hA
    have sB : 1 ≤ len2 F w := Real.one_le_sqrt.2 hB
    have sA' : 0 < len2 F v := by linarith
    have sB' : 0 < len2 F w := by linarith
    have eA : len2 F v ^ 2 = ∑ a ∈ F, v a ^ 2 := Real.sq_sqrt (by linarith)
    have eB : len2 F w ^ 2 = ∑ a ∈ F, w a ^ 2 := Real.sq_sqrt (by linarith)
    simp only [distance, sA'.ne', sB'.ne', or_self, if_false, clamp]
    refine max_le (by positivity) ((min_le_right _ _).trans ?_)
    have hprod : 1 ≤ len2 F v * len2 F w := by nlinarith
    have hsum : ∑ a ∈ F, (v a - w a) ^ 2 = len2 F v ^ 2 + len2 F w ^ 2 - 2 * ∑ a ∈ F, v a * w a := by
      rw [eA, eB, Finset.mul_sum, ← Finset.sum_add_distrib, ← Finset.sum_sub_distrib]
      exact Finset.sum_congr rfl fun a _ => by ring
    rw [sub_le_iff_le_add, ← sub_le_iff_le_add', le_div_iff₀ (mul_pos sA' sB')]
    have h1 : F.card * δ ^ 2 ≤ 2 * (F.card * δ) := by
      have := mul_le_mul_of_nonneg_left hs (mul_nonneg (Nat.cast_nonneg (α := ℝ) F.card) hδ)
      nlinarith
    have h2 := mul_le_mul_of_nonneg_left hprod (show 0 ≤ F.card * δ by positivity)
    nlinarith [sq_nonneg (len2 F v - len2 F w)]

/-! ### The growth transform -/

theorem invested_smul (k : ℝ) (t : S → ℝ) (c : V × X) : invested l (fun s => k * t s) c = k * invested l t c := by
  unfold invested
  rw [Finset.mul_sum]
  exact Finset.sum_congr rfl fun s _ => by ring

theorem invested_congr {t t' : S → ℝ} (h : ∀ s ∈ allSources l, t s = t' s) (c : V × X) : invested l t c = invested l t' c :=
  Finset.sum_congr rfl fun s hs => by rw [h s ((mem_allSources l).2 (mem_sources_of_sourcesOf l hs))]

theorem invested_sum (t : S → ℝ) : ∑ c ∈ allClaims l, invested l t c = ∑ s ∈ allSources l, t s := by
  unfold invested
  rw [sum_swap fun _ s => t s / nClaims l s]
  refine Finset.sum_congr rfl fun s hs => ?_
  rw [Finset.sum_const, nsmul_eq_mul]
  have := nClaims_pos l ((mem_allSources l).1 hs)
  have e : ((claimsOf l s).card : ℝ) = nClaims l s := rfl
  rw [e]
  field_simp

section Growth
variable {t t' : S → ℝ} {g k : ℝ}

/-- `t'` is, up to a factor, what the sources with trust `t` regain. -/
def GrowsTo (l : List (S × V × X)) (g k : ℝ) (t t' : S → ℝ) : Prop :=
  ∀ s ∈ allSources l, t' s = k * ∑ c ∈ claimsOf l s, invested l t c ^ g * ((t s / nClaims l s) / invested l t c)

theorem grows_pos (ht : ∀ s ∈ sources l, 0 < t s) (hk : 0 < k) (h : GrowsTo l g k t t') : ∀ s ∈ sources l, 0 < t' s := by
  intro s hs
  rw [h s ((mem_allSources l).2 hs)]
  refine mul_pos hk (Finset.sum_pos (fun c hc => ?_) (claimsOf_nonempty l hs))
  have hi := invested_pos ht (mem_claims_of_claimsOf l hc)
  exact mul_pos (Real.rpow_pos_of_pos hi g) (div_pos (div_pos (ht s hs) (nClaims_pos l hs)) hi)

theorem grows_weighted (h : GrowsTo l g k t t') (F : S → ℝ) : ∑ s ∈ allSources l, t' s * F s =
    k * ∑ c ∈ allClaims l, ∑ s ∈ sourcesOf l c, invested l t c ^ g * ((t s / nClaims l s) / invested l t c) * F s := by
  rw [sum_swap fun c s => invested l t c ^ g * ((t s / nClaims l s) / invested l t c) * F s, Finset.mul_sum]
  refine Finset.sum_congr rfl fun s hs => ?_
  rw [h s hs, ← Finset.sum_mul, mul_assoc]

theorem grows_total (ht : ∀ s ∈ sources l, 0 < t s) (h : GrowsTo l g k t t') :
    ∑ s ∈ allSources l, t' s = k * ∑ c ∈ allClaims l, invested l t c ^ g := by
  have := grows_weighted h fun _ => 1
  simp only [mul_one] at this
  rw [this]
  congr 1
  refine Finset.sum_congr rfl fun c hc => ?_
  have hi := invested_pos ht ((mem_allClaims l).1 hc)
  rw [← Finset.mul_sum, ← Finset.sum_div]
  have : (∑ s ∈ sourcesOf l c, t s / nClaims l s) / invested l t c = 1 := div_self hi.ne'
  rw [this, mul_one]

theorem concentration_log (hl : l ≠ []) (ht : ∀ s ∈ sources l, 0 < t s) (g : ℝ) :
    0 < concentration l g t ∧ Real.log (concentration l g t) =
      Real.log (∑ c ∈ allClaims l, invested l t c ^ g) - g * Real.log (∑ s ∈ allSources l, t s) := by
  have hN : 0 < ∑ s ∈ allSources l, t s := Finset.sum_pos (fun s hs => ht s ((mem_allSources l).1 hs)) (allSources_nonempty hl)
  have hP : 0 < ∑ c ∈ allClaims l, invested l t c ^ g :=
    Finset.sum_pos (fun c hc => Real.rpow_pos_of_pos (invested_pos ht ((mem_allClaims l).1 hc)) g) (allClaims_nonempty hl)
  have e : concentration l g t = (∑ c ∈ allClaims l, invested l t c ^ g) / (∑ s ∈ allSources l, t s) ^ g := by
    unfold concentration
    rw [Finset.sum_div]
    refine Finset.sum_congr rfl fun c hc => ?_
    rw [Real.div_rpow (invested_pos ht ((mem_allClaims l).1 hc)).le hN.le]
  rw [e]
  have := Real.rpow_pos_of_pos hN g
  exact ⟨div_pos hP this, by rw [Real.log_div hP.ne' this.ne', Real.log_rpow hN]⟩

/-- The concentration grows, by at least `g` times the relative entropy of the new trust. -/
theorem grows_concentration (hl : l ≠ []) (ht : ∀ s ∈ sources l, 0 < t s) (hg : 0 ≤ g) (hk : 0 < k) (h : GrowsTo l g k t t') :
    g * (∑ s ∈ allSources l, t' s / (∑ r ∈ allSources l, t' r) *
      (Real.log (t' s / ∑ r ∈ allSources l, t' r) - Real.log (t s / ∑ r ∈ allSources l, t r))) ≤
    Real.log (concentration l g t') - Real.log (concentration l g t) := by
  have ht' := grows_pos ht hk h
  obtain ⟨-, e1⟩ := concentration_log hl ht g
  obtain ⟨-, e2⟩ := concentration_log hl ht' g
  have hN : 0 < ∑ s ∈ allSources l, t s := Finset.sum_pos (fun s hs => ht s ((mem_allSources l).1 hs)) (allSources_nonempty hl)
  have hN' : 0 < ∑ s ∈ allSources l, t' s := Finset.sum_pos (fun s hs => ht' s ((mem_allSources l).1 hs)) (allSources_nonempty hl)
  have hH : ∀ c ∈ allClaims l, 0 < invested l t c := fun c hc => invested_pos ht ((mem_allClaims l).1 hc)
  have hH' : ∀ c ∈ allClaims l, 0 < invested l t' c := fun c hc => invested_pos ht' ((mem_allClaims l).1 hc)
  have hP : 0 < ∑ c ∈ allClaims l, invested l t c ^ g :=
    Finset.sum_pos (fun c hc => Real.rpow_pos_of_pos (hH c hc) g) (allClaims_nonempty hl)
  have hP' : 0 < ∑ c ∈ allClaims l, invested l t' c ^ g :=
    Finset.sum_pos (fun c hc => Real.rpow_pos_of_pos (hH' c hc) g) (allClaims_nonempty hl)
  -- Jensen over the claims
  have j1 := gibbs (allClaims_nonempty hl) (a := fun c => invested l t c ^ g) (x := fun c => (invested l t' c / invested l t c) ^ g)
    (fun c hc => Real.rpow_pos_of_pos (hH c hc) g) (fun c hc => Real.rpow_pos_of_pos (div_pos (hH' c hc) (hH c hc)) g)
  have s1 : ∑ c ∈ allClaims l, invested l t c ^ g * (invested l t' c / invested l t c) ^ g = ∑ c ∈ allClaims l, invested l t' c ^ g := by
    refine Finset.sum_congr rfl fun c hc => ?_
    rw [Real.div_rpow (hH' c hc).le (hH c hc).le]
    have := Real.rpow_pos_of_pos (hH c hc) g
    field_simp
  have s2 : ∑ c ∈ allClaims l, invested l t c ^ g * Real.log ((invested l t' c / invested l t c) ^ g) =
      g * ∑ c ∈ allClaims l, invested l t c ^ g * Real.log (invested l t' c / invested l t c) := by
    rw [Finset.mul_sum]
    refine Finset.sum_congr rfl fun c hc => ?_
    rw [Real.log_rpow (div_pos (hH' c hc) (hH c hc))]; ring
  rw [s1, s2, Real.log_div hP'.ne' hP.ne'] at j1
  -- Jensen over the sources of a claim
  have j2 : ∀ c ∈ allClaims l, ∑ s ∈ sourcesOf l c, invested l t c ^ g * ((t s / nClaims l s) / invested l t c) * Real.log (t' s / t s) ≤
      invested l t c ^ g * Real.log (invested l t' c / invested l t c) := by
    intro c hc
    have hne : (sourcesOf l c).Nonempty := by
      obtain ⟨u, hu, rfl⟩ := (mem_claims l).1 ((mem_allClaims l).1 hc)
      exact ⟨u.1, (mem_sourcesOf l).2 hu⟩
    have hs : ∀ s ∈ sourcesOf l c, s ∈ sources l := fun s hs => mem_sources_of_sourcesOf l hs
    have hp := Real.rpow_pos_of_pos (hH c hc) g
    have j := gibbs hne (a := fun s => invested l t c ^ g * ((t s / nClaims l s) / invested l t c)) (x := fun s => t' s / t s)
      (fun s h => mul_pos hp (div_pos (div_pos (ht s (hs s h)) (nClaims_pos l (hs s h))) (hH c hc)))
      (fun s h => div_pos (ht' s (hs s h)) (ht s (hs s h)))
    have a1 : ∑ s ∈ sourcesOf l c, invested l t c ^ g * ((t s / nClaims l s) / invested l t c) = invested l t c ^ g := by
      rw [← Finset.mul_sum, ← Finset.sum_div]
      have : (∑ s ∈ sourcesOf l c, t s / nClaims l s) / invested l t c = 1 := div_self (hH c hc).ne'
      rw [this, mul_one]
    have a2 : ∑ s ∈ sourcesOf l c, invested l t c ^ g * ((t s / nClaims l s) / invested l t c) * (t' s / t s) =
        invested l t c ^ g * (invested l t' c / invested l t c) := by
      conv_rhs => rw [show invested l t' c = ∑ s ∈ sourcesOf l c, t' s / nClaims l s from rfl, Finset.sum_div, Finset.mul_sum]
      refine Finset.sum_congr rfl fun s h => ?_
      have h1 := ht s (hs s h)
      have h2 := nClaims_pos l (hs s h)
      have h3 := hH c hc
      field_simp
    rw [a1, a2] at j
    have a3 : invested l t c ^ g * (invested l t' c / invested l t c) / invested l t c ^ g = invested l t' c / invested l t c := by
      field_simp
    rwa [a3] at j
  have j3 := Finset.sum_le_sum j2
  -- together
  have hw := grows_weighted h fun s => Real.log (t' s / t s)
  have htot := grows_total ht h
  have e3 : ∑ s ∈ allSources l, t' s / (∑ r ∈ allSources l, t' r) *
      (Real.log (t' s / ∑ r ∈ allSources l, t' r) - Real.log (t s / ∑ r ∈ allSources l, t r)) =
      (∑ s ∈ allSources l, t' s * Real.log (t' s / t s)) / (∑ r ∈ allSources l, t' r) -
        (Real.log (∑ r ∈ allSources l, t' r) - Real.log (∑ r ∈ allSources l, t r)) := by
    have : ∀ s ∈ allSources l, t' s / (∑ r ∈ allSources l, t' r) *
        (Real.log (t' s / ∑ r ∈ allSources l, t' r) - Real.log (t s / ∑ r ∈ allSources l, t r)) =
        t' s * Real.log (t' s / t s) / (∑ r ∈ allSources l, t' r) -
          t' s / (∑ r ∈ allSources l, t' r) * (Real.log (∑ r ∈ allSources l, t' r) - Real.log (∑ r ∈ allSources l, t r)) := by
      intro s hs
      have h1 := ht s ((mem_allSources l).1 hs)
      have h2 := ht' s ((mem_allSources l).1 hs)
      rw [Real.log_div h2.ne' hN'.ne', Real.log_div h1.ne' hN.ne', Real.log_div h2.ne' h1.ne']
      ring
    rw [Finset.sum_congr rfl this, Finset.sum_sub_distrib, ← Finset.sum_div, ← Finset.sum_mul, ← Finset.sum_div, div_self hN'.ne', one_mul]
  rw [e3, e1, e2, hw, htot]
  generalize ∑ c ∈ allClaims l, ∑ s ∈ sourcesOf l c, invested l t c ^ g * ((t s / nClaims l s) / invested l t c) * Real.log (t' s / t s) = W at *
  generalize ∑ c ∈ allClaims l, invested l t c ^ g * Real.log (invested l t' c / invested l t c) = Y at *
  generalize ∑ c ∈ allClaims l, invested l t c ^ g = P at *
  rw [mul_div_mul_left _ _ hk.ne']
  have h1 : W / P ≤ Y / P := div_le_div_of_nonneg_right j3 hP.le
  have h2 : g * (Y / P) ≤ Real.log (∑ c ∈ allClaims l, invested l t' c ^ g) - Real.log P := by
    rw [← mul_div_assoc, div_le_iff₀ hP]
    linarith
  have h3 := mul_le_mul_of_nonneg_left h1 hg
  linarith

theorem concentration_range (hl : l ≠ []) (ht : ∀ s ∈ sources l, 0 < t s) (hg : 0 ≤ g) :
    -(g * Real.log (allClaims l).card) ≤ Real.log (concentration l g t) ∧
    Real.log (concentration l g t) ≤ Real.log (allClaims l).card := by
  have hN : 0 < ∑ s ∈ allSources l, t s := Finset.sum_pos (fun s hs => ht s ((mem_allSources l).1 hs)) (allSources_nonempty hl)
  have hH : ∀ c ∈ allClaims l, 0 < invested l t c := fun c hc => invested_pos ht ((mem_allClaims l).1 hc)
  have hm : (0 : ℝ) < (allClaims l).card := by exact_mod_cast (allClaims_nonempty hl).card_pos
  have hsum : ∑ c ∈ allClaims l, invested l t c / ∑ s ∈ allSources l, t s = 1 := by
    rw [← Finset.sum_div, invested_sum, div_self hN.ne']
  have hle : ∀ c ∈ allClaims l, invested l t c / ∑ s ∈ allSources l, t s ≤ 1 := fun c hc =>
    hsum ▸ Finset.single_le_sum (f := fun c => invested l t c / ∑ s ∈ allSources l, t s) (fun d hd => (div_pos (hH d hd) hN).le) hc
  obtain ⟨hpos, -⟩ := concentration_log hl ht g
  constructor
  · have : ∃ c ∈ allClaims l, 1 / ((allClaims l).card : ℝ) ≤ invested l t c / ∑ s ∈ allSources l, t s := by
      by_contra hcon
      push Not at hcon
      have := Finset.sum_lt_sum_of_nonempty (allClaims_nonempty hl) hcon
      rw [hsum, Finset.sum_const, nsmul_eq_mul, mul_one_div_cancel hm.ne'] at this
      exact lt_irrefl _ this
    obtain ⟨c, hc, h⟩ := this
    have h1 : (1 / ((allClaims l).card : ℝ)) ^ g ≤ concentration l g t := by
      refine (Real.rpow_le_rpow (by positivity) h hg).trans ?_
      exact Finset.single_le_sum (f := fun c => (invested l t c / ∑ s ∈ allSources l, t s) ^ g)
        (fun d hd => (Real.rpow_pos_of_pos (div_pos (hH d hd) hN) g).le) hc
    have h2 := Real.log_le_log (Real.rpow_pos_of_pos (by positivity) g) h1
    rw [Real.log_rpow (by positivity), one_div, Real.log_inv] at h2
    linarith
  · refine Real.log_le_log hpos ?_
    have : concentration l g t ≤ ∑ _c ∈ allClaims l, (1 : ℝ) := Finset.sum_le_sum fun c hc =>
      Real.rpow_le_one (div_pos (hH c hc) hN).le (hle c hc) hg
    simpa using this

end Growth

/-! ### The iteration -/

/-- Scores after `k` iterations of Investment. -/
noncomputable abbrev invAt (l : List (S × V × X)) (g : ℝ) (p : Prior) (k : Nat) : Scores S V X :=
  (investStep l g)^[k] ((fun _ => 1), priorOf l p)

theorem inv_succ (g : ℝ) (p : Prior) (k : Nat) : invAt l g p (k + 1) = investStep l g (invAt l g p k) := Function.iterate_succ_apply' _ _ _

theorem inv_pos (hl : l ≠ []) (g : ℝ) (p : Prior) (k : Nat) : PosAll l (invAt l g p k) :=
  (invest_implements none hl (.fixed 0) p g).inv_iterate k

/-- After an iteration the beliefs are multiples of the powers of what is invested. -/
theorem inv_belief (hl : l ≠ []) (g : ℝ) (p : Prior) (k : Nat) :
    ∃ a > 0, ∀ c ∈ allClaims l, (invAt l g p (k + 1)).2 c = a * invested l (invAt l g p (k + 1)).1 c ^ g := by
  have hr : ∀ s ∈ sources l, 0 < regained l (invAt l g p k) s := fun s hs => regained_pos (inv_pos hl g p k) hs
  have hM := topS_pos hl hr
  have hB := topC_pos (t := fun c => invested l (regained l (invAt l g p k)) c ^ g) hl
    fun c hc => Real.rpow_pos_of_pos (invested_pos hr hc) g
  rw [inv_succ]
  refine ⟨top (allSources l) (regained l (invAt l g p k)) ^ g / top (allClaims l) (fun c => invested l (regained l (invAt l g p k)) c ^ g),
    div_pos (Real.rpow_pos_of_pos hM g) hB, fun c hc => ?_⟩
  have hi := invested_pos hr ((mem_allClaims l).1 hc)
  have e : invested l (investStep l g (invAt l g p k)).1 c = (top (allSources l) (regained l (invAt l g p k)))⁻¹ *
      invested l (regained l (invAt l g p k)) c := by
    rw [← invested_smul]
    refine invested_congr (fun s _ => ?_) c
    show _ / _ = _
    rw [div_eq_inv_mul]
  rw [e, Real.mul_rpow (_root_.inv_pos.2 hM).le hi.le, Real.inv_rpow hM.le]
  have := Real.rpow_pos_of_pos hM g
  show invested l (regained l (invAt l g p k)) c ^ g / _ = _
  field_simp

theorem inv_grows (hl : l ≠ []) (g : ℝ) (p : Prior) (k : Nat) :
    ∃ a > 0, GrowsTo l g a (invAt l g p (k + 1)).1 (invAt l g p (k + 2)).1 := by
  obtain ⟨a, ha, hb⟩ := inv_belief hl g p k
  have hr : ∀ s ∈ sources l, 0 < regained l (invAt l g p (k + 1)) s := fun s hs => regained_pos (inv_pos hl g p (k + 1)) hs
  have hM := topS_pos hl hr
  refine ⟨a / top (allSources l) (regained l (invAt l g p (k + 1))), div_pos ha hM, fun s hs => ?_⟩
  rw [inv_succ]
  show regained l (invAt l g p (k + 1)) s / _ = _
  have e : regained l (invAt l g p (k + 1)) s = a * ∑ c ∈ claimsOf l s, invested l (invAt l g p (k + 1)).1 c ^ g *
      (((invAt l g p (k + 1)).1 s / nClaims l s) / invested l (invAt l g p (k + 1)).1 c) := by
    unfold regained
    rw [Finset.mul_sum]
    refine Finset.sum_congr rfl fun c hc => ?_
    rw [hb c (mem_claimsOf' hc), mul_assoc]
  rw [e]
  ring

/-- The share of a source in the trust of all. -/
noncomputable def share (l : List (S × V × X)) (t : S → ℝ) (s : S) : ℝ := t s / ∑ r ∈ allSources l, t r

/-- Relative entropy of the trust after `k + 2` iterations with respect to that after `k + 1`. -/
noncomputable def invKl (l : List (S × V × X)) (g : ℝ) (p : Prior) (k : Nat) : ℝ :=
  ∑ s ∈ allSources l, share l (invAt l g p (k + 2)).1 s *
    (Real.log (share l (invAt l g p (k + 2)).1 s) - Real.log (share l (invAt l g p (k + 1)).1 s))

theorem inv_step_concentration (hl : l ≠ []) {g : ℝ} (hg : 0 ≤ g) (p : Prior) (k : Nat) :
    g * invKl l g p k ≤ Real.log (concentration l g (invAt l g p (k + 2)).1) - Real.log (concentration l g (invAt l g p (k + 1)).1) := by
  obtain ⟨a, ha, h⟩ := inv_grows hl g p k
  exact grows_concentration hl (inv_pos hl g p (k + 1)).1 hg ha h

theorem share_pos (hl : l ≠ []) {t : S → ℝ} (ht : ∀ s ∈ sources l, 0 < t s) : (∀ s ∈ allSources l, 0 < share l t s) ∧
    ∑ s ∈ allSources l, share l t s = 1 := by
  have hN : 0 < ∑ s ∈ allSources l, t s := Finset.sum_pos (fun s hs => ht s ((mem_allSources l).1 hs)) (allSources_nonempty hl)
  refine ⟨fun s hs => div_pos (ht s ((mem_allSources l).1 hs)) hN, ?_⟩
  unfold share
  rw [← Finset.sum_div, div_self hN.ne']

theorem share_change (hl : l ≠ []) (g : ℝ) (p : Prior) (k : Nat) {s : S} (hs : s ∈ allSources l) :
    (share l (invAt l g p (k + 2)).1 s - share l (invAt l g p (k + 1)).1 s) ^ 2 ≤ 4 * invKl l g p k := by
  obtain ⟨h1, h2⟩ := share_pos hl (inv_pos hl g p (k + 2)).1
  obtain ⟨h3, h4⟩ := share_pos hl (inv_pos hl g p (k + 1)).1
  exact kl_bound h1 h3 h2 h4 hs

theorem invKl_nonneg (hl : l ≠ []) (g : ℝ) (p : Prior) (k : Nat) : 0 ≤ invKl l g p k := by
  obtain ⟨s, hs⟩ := allSources_nonempty hl
  have := (sq_nonneg _).trans (share_change hl g p k hs)
  linarith

/-- **C90.** In Investment the concentration of the investments never falls: of two successful runs (with
whatever iterators) with at least one iteration each, the one with more iterations has the
larger or the same sum of `g`-th powers of the shares of the claims, `g` the exponent. -/
theorem C90_concentration {f : Option (V → X → X → Option Ex)} {am : Bool} {d : Dataset S V X Ex} (hd : Dataset.mk' l am f = .ok d)
    (hl : l ≠ []) {g : ℝ} (hg : 0 ≤ g) {p : Prior}
    {it it' : IterCfg Ex} {fuel fuel' : Nat} {clock clock' : Nat → Ex} {st st' : IterState Ex} {r r' : Result S V X Ex}
    (hr : AlgCfg.run ⟨.investment (fin g), it, some p⟩ d fuel clock st = .ok r)
    (hr' : AlgCfg.run ⟨.investment (fin g), it', some p⟩ d fuel' clock' st' = .ok r')
    {n n' : Nat} (hn : r.iterations = some n) (hn' : r'.iterations = some n') (h1 : 1 ≤ n) (hle : n ≤ n') :
    ∃ q q' : Scores S V X, Reports l r q ∧ Reports l r' q' ∧ concentration l g q.1 ≤ concentration l g q'.1 := by
  obtain rfl := mk'_ex hd
  obtain ⟨m, e, rep⟩ := (invest_implements f hl it p g).run_reports (by simp) hr
  obtain ⟨m', e', rep'⟩ := (invest_implements f hl it' p g).run_reports (by simp) hr'
  rw [e] at hn
  rw [e'] at hn'
  cases hn
  cases hn'
  obtain ⟨k, rfl⟩ : ∃ k, n = k + 1 := ⟨n - 1, by omega⟩
  obtain ⟨k', rfl⟩ : ∃ k', n' = k' + 1 := ⟨n' - 1, by omega⟩
  refine ⟨_, _, rep, rep', ?_⟩
  refine monotone_nat_of_le_succ (f := fun k => concentration l g (invAt l g p (k + 1)).1) (fun k => ?_) (by omega : k ≤ k')
  have h1 := inv_step_concentration hl hg p k
  have h2 := mul_nonneg hg (invKl_nonneg hl g p k)
  obtain ⟨p1, -⟩ := concentration_log hl (inv_pos hl g p (k + 1)).1 g
  obtain ⟨p2, -⟩ := concentration_log hl (inv_pos hl g p (k + 2)).1 g
  exact (Real.log_le_log_iff p1 p2).1 (by linarith)

theorem inv_movement (hl : l ≠ []) {g : ℝ} (hg : 0 < g) (p : Prior) (k : Nat) :
    ∑ i ∈ Finset.range k, invKl l g p i ≤ (1 + g) / g * Real.log (allClaims l).card := by
  have key : g * ∑ i ∈ Finset.range k, invKl l g p i ≤
      Real.log (concentration l g (invAt l g p (k + 1)).1) - Real.log (concentration l g (invAt l g p 1).1) := by
    induction k with
    | zero => simp
    | succ k ih =>
      have := inv_step_concentration hl hg.le p k
      rw [Finset.sum_range_succ, mul_add]
      show _ ≤ Real.log (concentration l g (invAt l g p (k + 2)).1) - _
      linarith
  have h1 := (concentration_range hl (inv_pos hl g p (k + 1)).1 hg.le).2
  have h2 := (concentration_range hl (inv_pos hl g p 1).1 hg.le).1
  rw [div_mul_eq_mul_div, le_div_iff₀ hg]
  linarith

/-- The trust scores are the shares divided by the largest one. -/
theorem inv_trust (hl : l ≠ []) (g : ℝ) (p : Prior) (k : Nat) {s : S} (hs : s ∈ allSources l) :
    (invAt l g p (k + 1)).1 s = share l (invAt l g p (k + 1)).1 s / top (allSources l) (share l (invAt l g p (k + 1)).1) := by
  have hr : ∀ s ∈ sources l, 0 < regained l (invAt l g p k) s := fun s hs => regained_pos (inv_pos hl g p k) hs
  have hN : 0 < ∑ s ∈ allSources l, (invAt l g p (k + 1)).1 s :=
    Finset.sum_pos (fun s hs => (inv_pos hl g p (k + 1)).1 s ((mem_allSources l).1 hs)) (allSources_nonempty hl)
  have htop : top (allSources l) (invAt l g p (k + 1)).1 = 1 := by
    rw [inv_succ]
    refine top_eq_of (fun b hb => scaled_le_one hb (topS_pos hl hr)) ?_
    obtain ⟨a, ha, e⟩ := scaled_max (allSources_nonempty hl) (topS_pos hl hr)
    exact ⟨a, ha, e⟩
  have e : share l (invAt l g p (k + 1)).1 = fun s => (∑ s ∈ allSources l, (invAt l g p (k + 1)).1 s)⁻¹ * (invAt l g p (k + 1)).1 s := by
    funext s
    unfold share
    rw [div_eq_inv_mul]
  rw [e, top_smul _ _ (_root_.inv_pos.2 hN), htop]
  field_simp

theorem inv_one (hl : l ≠ []) (g : ℝ) (p : Prior) (k : Nat) : ∃ s ∈ allSources l, (invAt l g p (k + 1)).1 s = 1 := by
  have hr : ∀ s ∈ sources l, 0 < regained l (invAt l g p k) s := fun s hs => regained_pos (inv_pos hl g p k) hs
  rw [inv_succ]
  obtain ⟨a, ha, e⟩ := scaled_max (allSources_nonempty hl) (topS_pos hl hr)
  exact ⟨a, ha, e⟩

theorem inv_range (hl : l ≠ []) (g : ℝ) (p : Prior) (k : Nat) {s : S} (hs : s ∈ allSources l) :
    0 ≤ (invAt l g p (k + 1)).1 s ∧ (invAt l g p (k + 1)).1 s ≤ 1 := by
  have hr : ∀ s ∈ sources l, 0 < regained l (invAt l g p k) s := fun s hs => regained_pos (inv_pos hl g p k) hs
  refine ⟨((inv_pos hl g p (k + 1)).1 s ((mem_allSources l).1 hs)).le, ?_⟩
  rw [inv_succ]
  exact scaled_le_one hs (topS_pos hl hr)

theorem scaled_change {A : Type} {F : Finset A} (hF : F.Nonempty) {v w : A → ℝ} {δ : ℝ} (hv : ∀ a ∈ F, 0 < v a) (hw : ∀ a ∈ F, 0 < w a)
    (hv1 : ∑ a ∈ F, v a = 1) (hd : ∀ a ∈ F, |v a - w a| ≤ δ) {a : A} (ha : a ∈ F) :
    |v a / top F v - w a / top F w| ≤ 2 * F.card * δ := by
  obtain ⟨i, hi, ei⟩ := top_mem (f := v) hF
  obtain ⟨j, hj, ej⟩ := top_mem (f := w) hF
  have hn : (0 : ℝ) < F.card := by exact_mod_cast hF.card_pos
  have hv' : 0 < top F v := ei ▸ hv i hi
  have hw' : 0 < top F w := ej ▸ hw j hj
  have hδ : 0 ≤ δ := (abs_nonneg _).trans (hd a ha)
  have hM : 1 ≤ F.card * top F v := by
    have : ∑ a ∈ F, v a ≤ ∑ _a ∈ F, top F v := Finset.sum_le_sum fun a ha => le_top ha
    rwa [hv1, Finset.sum_const, nsmul_eq_mul] at this
  have htt : |top F v - top F w| ≤ δ := by
    have h1 := abs_le.1 (hd i hi)
    have h2 := abs_le.1 (hd j hj)
    have h3 : w i ≤ top F w := le_top hi
    have h4 : v j ≤ top F v := le_top hj
    rw [abs_le]
    constructor <;> linarith
  have hwa : 0 ≤ w a / top F w ∧ w a / top F w ≤ 1 := ⟨(div_pos (hw a ha) hw').le, (div_le_one hw').2 (le_top ha)⟩
  have e : v a / top F v - w a / top F w = ((v a - w a) - w a / top F w * (top F v - top F w)) / top F v := by
    field_simp
    ring
  rw [e, abs_div, abs_of_pos hv', div_le_iff₀ hv']
  have h5 : |v a - w a - w a / top F w * (top F v - top F w)| ≤ 2 * δ := by
    refine (abs_sub _ _).trans ?_
    rw [abs_mul, abs_of_nonneg hwa.1]
    have := mul_le_mul hwa.2 htt (abs_nonneg _) zero_le_one
    linarith [hd a ha]
  nlinarith

/-! ### It settles -/

theorem inv_settles (hl : l ≠ []) {g th : ℝ} (hg : 0 < g) (hth : 0 < th) (p : Prior) (m : Measure) :
    ∃ n : Nat, (n : ℝ) ≤ 16 * (allSources l).card ^ 4 * ((1 + g) / g * Real.log (allClaims l).card) / th ^ 2 + 1 ∧
      distance m (allSources l) (invAt l g p (n + 1)).1 (invAt l g p n).1 < th := by
  have hne := allSources_nonempty hl
  have hn : (0 : ℝ) < (allSources l).card := by exact_mod_cast hne.card_pos
  have hm1 : (1 : ℝ) ≤ (allClaims l).card := by exact_mod_cast (allClaims_nonempty hl).card_pos
  have hlog := Real.log_nonneg hm1
  by_contra hcon
  have hE : 0 ≤ (1 + g) / g * Real.log (allClaims l).card := by positivity
  have hmove := inv_movement (l := l) hl hg p
  generalize (1 + g) / g * Real.log (allClaims l).card = E at *
  obtain ⟨B, hBdef⟩ : ∃ B : ℝ, B = 16 * (allSources l).card ^ 4 * E / th ^ 2 := ⟨_, rfl⟩
  rw [← hBdef] at hcon
  have hB : 0 ≤ B := by rw [hBdef]; positivity
  have hcon : ∀ n : Nat, (n : ℝ) ≤ B + 1 → th ≤ distance m (allSources l) (invAt l g p (n + 1)).1 (invAt l g p n).1 := by
    intro n hn
    by_contra hlt
    exact hcon ⟨n, hn, not_le.1 hlt⟩
  obtain ⟨K, hK⟩ : ∃ K : Nat, K = ⌊B⌋₊ + 1 := ⟨_, rfl⟩
  have hK1 : (K : ℝ) ≤ B + 1 := by rw [hK]; push_cast; linarith [Nat.floor_le hB]
  have hK2 : B < K := by rw [hK]; push_cast; exact Nat.lt_floor_add_one _
  have hstep : ∀ i ∈ Finset.range K, (th / (4 * (allSources l).card ^ 2)) ^ 2 ≤ invKl l g p i := by
    intro i hi
    have hi := Finset.mem_range.1 hi
    by_contra hlt
    push Not at hlt
    have hq := invKl_nonneg hl g p i
    have hroot : ∀ s ∈ allSources l, |share l (invAt l g p (i + 2)).1 s - share l (invAt l g p (i + 1)).1 s| ≤ 2 * Real.sqrt (invKl l g p i) := by
      intro s hs
      refine abs_le_of_sq_le_sq ?_ (by positivity)
      rw [mul_pow, Real.sq_sqrt hq]
      have := share_change hl g p i hs
      linarith
    have hsq : Real.sqrt (invKl l g p i) < th / (4 * (allSources l).card ^ 2) := (Real.sqrt_lt' (by positivity)).2 hlt
    generalize Real.sqrt (invKl l g p i) = q at hsq hroot
    obtain ⟨s0, hs0⟩ := id hne
    have hq0 : 0 ≤ q := by
      have := (abs_nonneg _).trans (hroot s0 hs0)
      linarith
    obtain ⟨h1, h2⟩ := share_pos hl (inv_pos hl g p (i + 2)).1
    obtain ⟨h3, h4⟩ := share_pos hl (inv_pos hl g p (i + 1)).1
    have hch : ∀ s ∈ allSources l, |(invAt l g p (i + 2)).1 s - (invAt l g p (i + 1)).1 s| ≤ min (2 * (allSources l).card * (2 * q)) 1 := by
      intro s hs
      refine le_min ?_ ?_
      · rw [inv_trust hl g p (i + 1) hs, inv_trust hl g p i hs]
        exact scaled_change hne h1 h3 h2 hroot hs
      · have a1 := inv_range hl g p (i + 1) hs
        have a2 := inv_range hl g p i hs
        rw [abs_le]
        constructor <;> linarith [a1.1, a1.2, a2.1, a2.2]
    have hd := distance_le_unit (le_min (by positivity) zero_le_one) (inv_one hl g p (i + 1)) (inv_one hl g p i) hch
      ((min_le_right _ _).trans (by norm_num)) m
    have hfar := hcon (i + 1) (by
      have : ((i + 1 : Nat) : ℝ) ≤ K := by exact_mod_cast hi
      linarith)
    have : (allSources l).card * min (2 * (allSources l).card * (2 * q)) 1 < th := by
      calc (allSources l).card * min (2 * (allSources l).card * (2 * q)) 1 ≤ (allSources l).card * (2 * (allSources l).card * (2 * q)) :=
            mul_le_mul_of_nonneg_left (min_le_left _ _) hn.le
        _ = q * (4 * (allSources l).card ^ 2) := by ring
        _ < th := by rwa [lt_div_iff₀ (by positivity)] at hsq
    exact absurd (hfar.trans hd) (not_le.2 this)
  have hsum := Finset.sum_le_sum hstep
  rw [Finset.sum_const, Finset.card_range, nsmul_eq_mul] at hsum
  have htot := hsum.trans (hmove K)
  have : (K : ℝ) ≤ B := by
    rw [hBdef, le_div_iff₀ (by positivity)]
    calc (K : ℝ) * th ^ 2 = 16 * (allSources l).card ^ 4 * (K * (th / (4 * (allSources l).card ^ 2)) ^ 2) := by
          field_simp
          ring
      _ ≤ _ := mul_le_mul_of_nonneg_left htot (by positivity)
  linarith

/-- **C90.** Investment with exponent `g > 0` and a `ConvergenceIterator` of any measure and positive
threshold succeeds, whatever the dataset and the prior beliefs, if the limit is at least
`16 n⁴ (1 + 1/g) log m / th² + 2` for `n` sources and `m` claims; and it does not need more
iterations than that. -/
theorem C90_settles (l : List (S × V × X)) (am : Bool) (f : Option (V → X → X → Option Ex)) (d : Dataset S V X Ex)
    (hd : Dataset.mk' l am f = .ok d) (hl : l ≠ []) {g th : ℝ} (hg : 0 < g) (hth : 0 < th) (m : Measure)
    (p : Prior) (limit : Int) (fuel : Nat) (clock : Nat → Ex) (st : IterState Ex)
    (hlim : 16 * (allSources l).card ^ 4 * ((1 + g) / g * Real.log (allClaims l).card) / th ^ 2 + 2 ≤ (limit : ℝ))
    (hfuel : limit < (fuel : Int)) :
    ∃ r, (⟨.investment (fin g), .conv (some m) (fin th) limit, some p⟩ : AlgCfg Ex).run d fuel clock st = .ok r ∧
      ∃ n : Nat, r.iterations = some n ∧
        (n : ℝ) ≤ 16 * (allSources l).card ^ 4 * ((1 + g) / g * Real.log (allClaims l).card) / th ^ 2 + 2 := by
  obtain rfl := mk'_ex hd
  obtain ⟨n, hn, hdist⟩ := inv_settles hl hg hth p m
  have hlim' : ((n + 1 : Nat) : Int) ≤ limit := by
    have : (((n + 1 : Nat) : Int) : ℝ) ≤ (limit : ℝ) := by push_cast; linarith
    exact_mod_cast this
  obtain ⟨r, hr, k, hk, hkn⟩ := run_succeeds_of_lt (by simp) hl
    (fun limit => invest_implements f hl (.conv (some m) (fin th) limit) p g) (N := n)
    (by
      have := hdist
      rw [inv_succ] at this
      exact this) limit fuel clock st hlim' (by omega)
  refine ⟨r, hr, k, hk, ?_⟩
  have : (k : ℝ) ≤ ((n + 1 : Nat) : ℝ) := by exact_mod_cast hkn
  push_cast at this
  linarith

/-! ### Cases -/

/-- Investment with the default parameters and a threshold of 1/10. -/
example (m : Measure) (clock : Nat → Ex) : ∃ (d : Dataset Nat Nat Nat Ex) (r : Result Nat Nat Nat Ex),
    Dataset.mk' twoParts false none = .ok d ∧
    AlgCfg.run ⟨.investment (fin 1.2), .conv (some m) (fin 0.1) 3000000, some .voted⟩ d 3000001 clock {} = .ok r := by
  obtain ⟨d, hd⟩ := exists_dataset twoParts (by decide)
  obtain ⟨r, hr, -⟩ := C90_settles twoParts false none d hd (by decide) (g := 1.2) (th := 0.1) (by norm_num) (by norm_num) m .voted 3000000
    3000001 clock {}
    (by
      have h1 : (allSources twoParts).card = 4 := by decide
      have h2 : (allClaims twoParts).card = 4 := by decide
      have h3 := Real.log_le_sub_one_of_pos (x := (4 : ℝ)) (by norm_num)
      rw [h1, h2]
      push_cast
      norm_num at h3 ⊢
      linarith) (by norm_num)
  exact ⟨d, r, hd, hr⟩

example (clock : Nat → Ex) : ∃ (d : Dataset Nat Nat Nat Ex) (r r' : Result Nat Nat Nat Ex),
    Dataset.mk' twoParts false none = .ok d ∧
    AlgCfg.run ⟨.investment (fin 1.2), .fixed 2, some .voted⟩ d 100 clock {} = .ok r ∧ r.iterations = some 2 ∧
    AlgCfg.run ⟨.investment (fin 1.2), .fixed 9, some .voted⟩ d 100 clock {} = .ok r' ∧ r'.iterations = some 9 := by
  obtain ⟨d, hd⟩ := exists_dataset twoParts (by decide)
  obtain rfl := mk'_ex hd
  obtain ⟨r, h, e, -⟩ := (invest_implements (l := twoParts) none (by decide) (.fixed 2) .voted 1.2).run_fixed
    nofun (by simp [twoParts]) (N := 2) rfl (fuel := 100) (by norm_num) clock {}
  obtain ⟨r', h', e', -⟩ := (invest_implements (l := twoParts) none (by decide) (.fixed 9) .voted 1.2).run_fixed
    nofun (by simp [twoParts]) (N := 9) rfl (fuel := 100) (by norm_num) clock {}
  exact ⟨_, r, r', hd, h, e, h', e'⟩

end TD
