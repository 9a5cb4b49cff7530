import Verif.Spec.Support
import Verif.Lemmas.Converge
/-! What one more supporter of a claim changes. -/

namespace TD
open Spec Ex Filter Topology
attribute [-instance] instBEqProd

variable {S V X : Type} [DecidableEq S] [DecidableEq V] [DecidableEq X]
variable {l l' : List (S × V × X)} {s₀ : S} {c₀ : V × X}

theorem Spec.Backed.claims (h : Backed l l' s₀ c₀) : allClaims l' = allClaims l := by
  ext d
  simp only [allClaims, List.mem_toFinset, List.mem_map]
  constructor
  · rintro ⟨t, ht, rfl⟩
    rcases (h.same t).1 ht with ht | rfl
    · exact ⟨t, ht, rfl⟩
    · obtain ⟨t, ht, e⟩ := h.made
      exact ⟨t, ht, e⟩
  · rintro ⟨t, ht, rfl⟩
    exact ⟨t, (h.same t).2 (.inl ht), rfl⟩

theorem Spec.Backed.sources (h : Backed l l' s₀ c₀) : allSources l' = insert s₀ (allSources l) := by
  ext d
  simp only [allSources, List.mem_toFinset, List.mem_map, Finset.mem_insert]
  constructor
  · rintro ⟨t, ht, rfl⟩
    rcases (h.same t).1 ht with ht | rfl
    · exact .inr ⟨t, ht, rfl⟩
    · exact .inl rfl
  · rintro (rfl | ⟨t, ht, rfl⟩)
    · exact ⟨_, (h.same _).2 (.inr rfl), rfl⟩
    · exact ⟨t, (h.same t).2 (.inl ht), rfl⟩

theorem Spec.Backed.not_mem (h : Backed l l' s₀ c₀) : s₀ ∉ allSources l := by
  simp only [allSources, List.mem_toFinset, List.mem_map, not_exists, not_and]
  intro t ht
  exact h.new t ht

theorem Spec.Backed.mem (h : Backed l l' s₀ c₀) : c₀ ∈ allClaims l := by
  simp only [allClaims, List.mem_toFinset, List.mem_map]
  exact h.made

theorem Spec.Backed.rivals (h : Backed l l' s₀ c₀) (d : V × X) : rivals l' d = rivals l d := by
  unfold Spec.rivals; rw [h.claims]

theorem Spec.Backed.claimsOf (h : Backed l l' s₀ c₀) {s : S} (hs : s ≠ s₀) : claimsOf l' s = claimsOf l s := by
  ext c
  rw [TD.mem_claimsOf, TD.mem_claimsOf, h.same]
  simp [hs]

theorem Spec.Backed.claimsOf_new (h : Backed l l' s₀ c₀) : Spec.claimsOf l' s₀ = {c₀} := by
  ext d
  rw [TD.mem_claimsOf, h.same, Finset.mem_singleton]
  constructor
  · rintro (h1 | h1)
    · exact absurd rfl (h.new _ h1)
    · exact (Prod.mk.inj h1).2
  · rintro rfl
    exact .inr rfl

theorem Spec.Backed.sourcesOf (h : Backed l l' s₀ c₀) {c : V × X} (hc : c ≠ c₀) : sourcesOf l' c = sourcesOf l c := by
  ext s
  rw [TD.mem_sourcesOf, TD.mem_sourcesOf, h.same]
  simp [hc]

theorem Spec.Backed.not_mem_sourcesOf (h : Backed l l' s₀ c₀) (c : V × X) : s₀ ∉ Spec.sourcesOf l c :=
  fun hs => h.new _ ((TD.mem_sourcesOf l).1 hs) rfl

theorem Spec.Backed.sourcesOf_new (h : Backed l l' s₀ c₀) : Spec.sourcesOf l' c₀ = insert s₀ (Spec.sourcesOf l c₀) := by
  ext s
  rw [TD.mem_sourcesOf, Finset.mem_insert, TD.mem_sourcesOf, h.same]
  simp [or_comm]

theorem Spec.Backed.sumBelief (h : Backed l l' s₀ c₀) (t : S → ℝ) (c : V × X) :
    Spec.sumBelief l' t c = Spec.sumBelief l t c + if c = c₀ then t s₀ else 0 := by
  unfold Spec.sumBelief
  by_cases hc : c = c₀
  · subst hc
    rw [h.sourcesOf_new, Finset.sum_insert (h.not_mem_sourcesOf c), if_pos rfl, add_comm]
  · rw [h.sourcesOf hc, if_neg hc, add_zero]

theorem Spec.Backed.sumTrust (h : Backed l l' s₀ c₀) (b : V × X → ℝ) {s : S} (hs : s ≠ s₀) :
    Spec.sumTrust l' b s = Spec.sumTrust l b s := by
  unfold Spec.sumTrust; rw [h.claimsOf hs]

theorem Spec.Backed.sumTrust_new (h : Backed l l' s₀ c₀) (b : V × X → ℝ) : Spec.sumTrust l' b s₀ = b c₀ := by
  unfold Spec.sumTrust; rw [h.claimsOf_new, Finset.sum_singleton]

/-! ### The two sums one after the other -/

/-- Beliefs after one iteration without normalisation. -/
noncomputable def twice (l : List (S × V × X)) (b : V × X → ℝ) (c : V × X) : ℝ := Spec.sumBelief l (Spec.sumTrust l b) c

theorem twice_backed (h : Backed l l' s₀ c₀) (b : V × X → ℝ) (c : V × X) :
    twice l' b c = twice l b c + if c = c₀ then b c₀ else 0 := by
  unfold twice
  rw [h.sumBelief, h.sumTrust_new]
  congr 1
  unfold Spec.sumBelief
  refine Finset.sum_congr rfl fun s hs => h.sumTrust b ?_
  rintro rfl
  exact h.not_mem_sourcesOf _ hs

theorem mem_claimsOf' {s : S} {c : V × X} (h : c ∈ Spec.claimsOf l s) : c ∈ allClaims l :=
  (mem_allClaims l).2 (mem_claims_of_claimsOf l h)

theorem twice_mono {b b' : V × X → ℝ} (hb : ∀ c ∈ allClaims l, b c ≤ b' c) (c : V × X) : twice l b c ≤ twice l b' c := by
  unfold twice Spec.sumBelief Spec.sumTrust
  exact Finset.sum_le_sum fun _ _ => Finset.sum_le_sum fun d hd => hb d (mem_claimsOf' hd)

theorem twice_smul (a : ℝ) (b : V × X → ℝ) (c : V × X) : twice l (fun d => a * b d) c = a * twice l b c := by
  unfold twice Spec.sumBelief Spec.sumTrust
  simp only [Finset.mul_sum]

theorem twice_nonneg {b : V × X → ℝ} (hb : ∀ c ∈ allClaims l, 0 ≤ b c) (c : V × X) : 0 ≤ twice l b c := by
  unfold twice Spec.sumBelief Spec.sumTrust
  exact Finset.sum_nonneg fun _ _ => Finset.sum_nonneg fun d hd => hb d (mem_claimsOf' hd)

theorem sum_swap (f : V × X → S → ℝ) :
    ∑ c ∈ allClaims l, ∑ s ∈ Spec.sourcesOf l c, f c s = ∑ s ∈ allSources l, ∑ c ∈ Spec.claimsOf l s, f c s := by
  refine Finset.sum_comm' fun c s => ?_
  rw [mem_sourcesOf, mem_claimsOf]
  constructor
  · rintro ⟨-, h⟩
    exact ⟨h, (mem_allSources l).2 (mem_sources_of_sourcesOf l ((mem_sourcesOf l).2 h))⟩
  · rintro ⟨h, -⟩
    exact ⟨mem_claimsOf' ((mem_claimsOf l).2 h), h⟩

theorem twice_symm (a b : V × X → ℝ) : ∑ c ∈ allClaims l, a c * twice l b c = ∑ c ∈ allClaims l, b c * twice l a c := by
  have key : ∀ a b : V × X → ℝ, ∑ c ∈ allClaims l, a c * twice l b c =
      ∑ s ∈ allSources l, Spec.sumTrust l a s * Spec.sumTrust l b s := by
    intro a b
    unfold twice Spec.sumBelief
    simp only [Finset.mul_sum]
    rw [sum_swap fun c s => a c * Spec.sumTrust l b s]
    refine Finset.sum_congr rfl fun s _ => ?_
    conv_rhs => unfold Spec.sumTrust
    rw [Finset.sum_mul]
    rfl
  rw [key, key]
  exact Finset.sum_congr rfl fun s _ => mul_comm _ _

theorem usums_twice (prior : V × X → ℝ) (k : Nat) : (usums l prior (k + 1)).2 = twice l (usums l prior k).2 := by
  rw [usums_succ]; rfl

/-- The growth rate and the limit of the beliefs. -/
structure Growth (l : List (S × V × X)) (prior : V × X → ℝ) (mu : ℝ) (v : V × X → ℝ) : Prop where
  pos : 0 < mu
  lim : ∀ c ∈ allClaims l, Tendsto (fun k : Nat => (usums l prior (k + 1)).2 c / mu ^ k) atTop (𝓝 (v c))
  nonneg : ∀ c ∈ allClaims l, 0 ≤ v c
  some_pos : ∃ c ∈ allClaims l, 0 < v c

theorem Growth.eigen {prior : V × X → ℝ} {mu : ℝ} {v : V × X → ℝ} (h : Growth l prior mu v) {c : V × X} (hc : c ∈ allClaims l) :
    twice l v c = mu * v c := by
  have h1 : Tendsto (fun k : Nat => twice l (fun d => (usums l prior (k + 1)).2 d / mu ^ k) c) atTop (𝓝 (twice l v c)) := by
    unfold twice Spec.sumBelief Spec.sumTrust
    exact tendsto_finsetSum _ fun s _ => tendsto_finsetSum _ fun d hd => h.lim d (mem_claimsOf' hd)
  have h2 : Tendsto (fun k : Nat => mu * ((usums l prior (k + 1 + 1)).2 c / mu ^ (k + 1))) atTop (𝓝 (mu * v c)) :=
    ((tendsto_add_atTop_iff_nat 1).2 (h.lim c hc)).const_mul mu
  refine tendsto_nhds_unique h1 (h2.congr fun k => ?_)
  have e : twice l (fun d => (usums l prior (k + 1)).2 d / mu ^ k) c = (mu ^ k)⁻¹ * twice l (usums l prior (k + 1)).2 c := by
    rw [← twice_smul]; congr 1; funext d; rw [div_eq_inv_mul]
  rw [e, usums_twice, pow_succ]
  have := h.pos.ne'
  field_simp

/-- Nothing grows faster. -/
theorem Growth.le {prior : V × X → ℝ} {mu : ℝ} {v : V × X → ℝ} (h : Growth l prior mu v)
    (hp : ∀ c ∈ allClaims l, 0 < prior c) {w : V × X → ℝ} {sig : ℝ} (hw : ∀ c ∈ allClaims l, 0 ≤ w c)
    (hs : 0 ≤ sig) (hF : ∀ c ∈ allClaims l, sig * w c ≤ twice l w c) {d : V × X} (hd : d ∈ allClaims l) (hpos : 0 < w d) :
    sig ≤ mu := by
  -- a multiple of w below the prior
  obtain ⟨a, ha, hle⟩ : ∃ a : ℝ, 0 < a ∧ ∀ c ∈ allClaims l, a * w c ≤ prior c := by
    have hne : (allClaims l).Nonempty := ⟨d, hd⟩
    obtain ⟨m, hm, hmin⟩ := Finset.exists_min_image (allClaims l) prior hne
    obtain ⟨M, hM, hmax⟩ := Finset.exists_max_image (allClaims l) w hne
    have hMpos : 0 < w M := hpos.trans_le (hmax d hd)
    refine ⟨prior m / w M, div_pos (hp m hm) hMpos, fun c hc => ?_⟩
    calc prior m / w M * w c ≤ prior m / w M * w M :=
          mul_le_mul_of_nonneg_left (hmax c hc) (div_pos (hp m hm) hMpos).le
      _ = prior m := div_mul_cancel₀ _ hMpos.ne'
      _ ≤ prior c := hmin c hc
  have hk : ∀ k : Nat, ∀ c ∈ allClaims l, a * sig ^ k * w c ≤ (usums l prior k).2 c := by
    intro k
    induction k with
    | zero =>
      intro c hc
      rw [pow_zero, mul_one]
      exact hle c hc
    | succ k ih =>
      intro c hc
      rw [usums_twice]
      refine le_trans ?_ (twice_mono ih c)
      have e : twice l (fun c => a * sig ^ k * w c) c = a * sig ^ k * twice l w c := twice_smul _ _ _
      rw [e, pow_succ]
      have := mul_le_mul_of_nonneg_left (hF c hc) (mul_nonneg ha.le (pow_nonneg hs k))
      calc a * (sig ^ k * sig) * w c = a * sig ^ k * (sig * w c) := by ring
        _ ≤ _ := this
  by_contra hlt
  have hr : 1 < sig / mu := (one_lt_div h.pos).2 (not_le.1 hlt)
  have hlim := h.lim d hd
  have hinf : Tendsto (fun k : Nat => (sig / mu) ^ k * (a * sig * w d)) atTop atTop :=
    (tendsto_pow_atTop_atTop_of_one_lt hr).atTop_mul_const (mul_pos (mul_pos ha (h.pos.trans (not_le.1 hlt))) hpos)
  refine not_tendsto_nhds_of_tendsto_atTop ?_ _ hlim
  refine tendsto_atTop_mono (fun k => ?_) hinf
  rw [le_div_iff₀ (pow_pos h.pos k)]
  calc (sig / mu) ^ k * (a * sig * w d) * mu ^ k = a * sig ^ (k + 1) * w d := by
        rw [div_pow, pow_succ]
        have := (pow_pos h.pos k).ne'
        field_simp
    _ ≤ _ := hk (k + 1) d hd

/-- The effect of one more supporter on the limits: relative to every other claim, the belief in
the supported one does not fall. -/
theorem growth_backed (h : Backed l l' s₀ c₀) {prior prior' : V × X → ℝ} {mu mu' : ℝ} {v v' : V × X → ℝ}
    (hp : ∀ c ∈ allClaims l, 0 < prior c) (hp' : ∀ c ∈ allClaims l, 0 < prior' c)
    (g : Growth l prior mu v) (g' : Growth l' prior' mu' v') (hv : 0 < v c₀) :
    0 < v' c₀ ∧ ∀ d ∈ allClaims l, d ≠ c₀ → v' d * v c₀ ≤ v d * v' c₀ ∧ (0 < v d → v' d * v c₀ < v d * v' c₀) := by
  have hcl := h.claims
  have g'nn : ∀ c ∈ allClaims l, 0 ≤ v' c := fun c hc => g'.nonneg c (hcl ▸ hc)
  have eig' : ∀ c ∈ allClaims l, twice l v' c + (if c = c₀ then v' c₀ else 0) = mu' * v' c := fun c hc => by
    rw [← twice_backed h, g'.eigen (hcl ▸ hc)]
  -- pairing the two limits
  have hpair : v c₀ * v' c₀ = (mu' - mu) * ∑ c ∈ allClaims l, v c * v' c := by
    have e1 : ∑ c ∈ allClaims l, v c * (twice l v' c + if c = c₀ then v' c₀ else 0) = mu' * ∑ c ∈ allClaims l, v c * v' c := by
      rw [Finset.mul_sum]
      refine Finset.sum_congr rfl fun c hc => ?_
      rw [eig' c hc]; ring
    have e2 : ∑ c ∈ allClaims l, v c * (twice l v' c + if c = c₀ then v' c₀ else 0) =
        ∑ c ∈ allClaims l, v c * twice l v' c + v c₀ * v' c₀ := by
      simp only [mul_add, Finset.sum_add_distrib]
      congr 1
      rw [Finset.sum_eq_single c₀ (fun c _ hc => by rw [if_neg hc, mul_zero]) (fun hc => absurd h.mem hc), if_pos rfl]
    have e3 : ∑ c ∈ allClaims l, v c * twice l v' c = mu * ∑ c ∈ allClaims l, v c * v' c := by
      rw [twice_symm, Finset.mul_sum]
      refine Finset.sum_congr rfl fun c hc => ?_
      rw [g.eigen hc]; ring
    linarith
  have hsum : 0 ≤ ∑ c ∈ allClaims l, v c * v' c := Finset.sum_nonneg fun c hc => mul_nonneg (g.nonneg c hc) (g'nn c hc)
  -- the beliefs grow at least as fast as before
  obtain ⟨a, ha, hle⟩ : ∃ a : ℝ, 0 < a ∧ ∀ c ∈ allClaims l, a * prior c ≤ prior' c := by
    have hne : (allClaims l).Nonempty := ⟨_, h.mem⟩
    obtain ⟨m, hm, hmin⟩ := Finset.exists_min_image (allClaims l) prior' hne
    obtain ⟨M, hM, hmax⟩ := Finset.exists_max_image (allClaims l) prior hne
    refine ⟨prior' m / prior M, div_pos (hp' m hm) (hp M hM), fun c hc => ?_⟩
    calc prior' m / prior M * prior c ≤ prior' m / prior M * prior M :=
          mul_le_mul_of_nonneg_left (hmax c hc) (div_pos (hp' m hm) (hp M hM)).le
      _ = prior' m := div_mul_cancel₀ _ (hp M hM).ne'
      _ ≤ prior' c := hmin c hc
  have husums0 : ∀ k, ∀ c ∈ allClaims l, 0 ≤ (usums l prior k).2 c := by
    intro k c hc
    exact ((usums_pos (fun c hc => hp c ((mem_allClaims l).2 hc)) k).1 c ((mem_allClaims l).1 hc)).le
  have hk : ∀ k, ∀ c ∈ allClaims l, a * (usums l prior k).2 c ≤ (usums l' prior' k).2 c := by
    intro k
    induction k with
    | zero => exact hle
    | succ k ih =>
      intro c hc
      rw [usums_twice, usums_twice, twice_backed h, ← twice_smul]
      have h1 := twice_mono (l := l) ih c
      have h2 : 0 ≤ if c = c₀ then (usums l' prior' k).2 c₀ else 0 := by
        split
        · exact (mul_nonneg ha.le (husums0 k c₀ h.mem)).trans (ih c₀ h.mem)
        · exact le_rfl
      linarith
  have hmu : mu < mu' := by
    rcases lt_trichotomy mu' mu with hlt | heq | hgt
    · exfalso
      have h1 : Tendsto (fun k : Nat => a * ((usums l prior (k + 1)).2 c₀ / mu ^ k)) atTop (𝓝 (a * v c₀)) :=
        (g.lim c₀ h.mem).const_mul a
      have h2 : Tendsto (fun k : Nat => (usums l' prior' (k + 1)).2 c₀ / mu' ^ k * (mu' / mu) ^ k) atTop (𝓝 (v' c₀ * 0)) :=
        (g'.lim c₀ (hcl ▸ h.mem)).mul (tendsto_pow_atTop_nhds_zero_of_lt_one (div_pos g'.pos g.pos).le
          ((div_lt_one g.pos).2 hlt))
      have := le_of_tendsto_of_tendsto' h1 h2 fun k => by
        have e : (usums l' prior' (k + 1)).2 c₀ / mu' ^ k * (mu' / mu) ^ k = (usums l' prior' (k + 1)).2 c₀ / mu ^ k := by
          rw [div_pow]
          have := (pow_pos g'.pos k).ne'
          field_simp
        rw [e, ← mul_div_assoc]
        exact div_le_div_of_nonneg_right (hk (k + 1) c₀ h.mem) (pow_pos g.pos k).le
      rw [mul_zero] at this
      exact absurd this (not_le.2 (mul_pos ha hv))
    · exfalso
      subst heq
      have h1 : a * v c₀ ≤ v' c₀ := le_of_tendsto_of_tendsto' ((g.lim c₀ h.mem).const_mul a) (g'.lim c₀ (hcl ▸ h.mem))
        fun k => by
          rw [← mul_div_assoc]
          exact div_le_div_of_nonneg_right (hk (k + 1) c₀ h.mem) (pow_pos g.pos k).le
      have h2 := mul_pos hv ((mul_pos ha hv).trans_le h1)
      rw [hpair, sub_self, zero_mul] at h2
      exact lt_irrefl _ h2
    · exact hgt
  have hv' : 0 < v' c₀ := by
    rcases (g'nn c₀ h.mem).lt_or_eq with h1 | h1
    · exact h1
    · exfalso
      obtain ⟨d, hd, hpos⟩ := g'.some_pos
      rw [hcl] at hd
      refine absurd (g.le hp (w := v') (sig := mu') g'nn g'.pos.le (fun c hc => ?_) hd hpos) (not_le.2 hmu)
      rw [← eig' c hc]
      split
      · rw [← h1, add_zero]
      · rw [add_zero]
  -- claims connected to one with limit 0 have limit 0
  have hzero : ∀ c ∈ allClaims l, v c = 0 → ∀ s ∈ Spec.sourcesOf l c, ∀ e ∈ Spec.claimsOf l s, v e = 0 := by
    intro c hc h0 s hs e he
    have := g.eigen hc
    rw [h0, mul_zero] at this
    unfold twice Spec.sumBelief at this
    have h1 := (Finset.sum_eq_zero_iff_of_nonneg fun s _ =>
      Finset.sum_nonneg fun d hd => g.nonneg d (mem_claimsOf' hd)).1 this s hs
    exact (Finset.sum_eq_zero_iff_of_nonneg fun d hd => g.nonneg d (mem_claimsOf' hd)).1 h1 e he
  have hz : ∀ d ∈ allClaims l, v d = 0 → v' d = 0 := by
    intro d hd h0
    by_contra hne
    have hpos : 0 < v' d := lt_of_le_of_ne (g'nn d hd) (Ne.symm hne)
    refine absurd (g.le hp (w := fun c => if v c = 0 then v' c else 0) (sig := mu') (fun c hc => ?_) g'.pos.le
      (fun c hc => ?_) hd (by simpa only [h0, if_true] using hpos)) (not_le.2 hmu)
    · split
      · exact g'nn c hc
      · exact le_rfl
    · by_cases hc0 : v c = 0
      · rw [if_pos hc0]
        have hcc : c ≠ c₀ := by rintro rfl; exact hv.ne' hc0
        have := eig' c hc
        rw [if_neg hcc, add_zero] at this
        rw [← this]
        refine le_of_eq ?_
        unfold twice Spec.sumBelief
        refine Finset.sum_congr rfl fun s hs => Finset.sum_congr rfl fun e he => ?_
        exact (if_pos (hzero c hc hc0 s hs e he)).symm
      · rw [if_neg hc0, mul_zero]
        refine twice_nonneg (fun c hc => ?_) c
        split
        · exact g'nn c hc
        · exact le_rfl
  -- the largest ratio
  obtain ⟨i, hi, hmax⟩ := Finset.exists_max_image ((allClaims l).filter fun c => 0 < v c) (fun c => v' c / v c)
    ⟨c₀, Finset.mem_filter.2 ⟨h.mem, hv⟩⟩
  obtain ⟨hi, hvi⟩ := Finset.mem_filter.1 hi
  have hth : 0 < v' i / v i := (div_pos hv' hv).trans_le (hmax c₀ (Finset.mem_filter.2 ⟨h.mem, hv⟩))
  have hall : ∀ θ, (∀ c ∈ allClaims l, 0 < v c → v' c / v c ≤ θ) → ∀ c ∈ allClaims l, v' c ≤ θ * v c := by
    intro θ hθ c hc
    rcases (g.nonneg c hc).lt_or_eq with h1 | h1
    · exact (div_le_iff₀ h1).1 (hθ c hc h1)
    · rw [hz c hc h1.symm, ← h1, mul_zero]
  have hunique : ∀ j ∈ allClaims l, 0 < v j → v' j / v j = v' i / v i → j = c₀ := by
    intro j hj hvj e
    by_contra hne
    have h1 := hall (v' j / v j) (fun c hc h => by rw [e]; exact hmax c (Finset.mem_filter.2 ⟨hc, h⟩))
    have h2 := twice_mono (l := l) h1 j
    rw [twice_smul, g.eigen hj] at h2
    have h3 := eig' j hj
    rw [if_neg hne, add_zero] at h3
    have h4 : v' j / v j * (mu * v j) = mu * v' j := by
      field_simp
    rw [h4, h3] at h2
    have h5 : 0 < v' j := by
      have : 0 < v' j / v j := by rw [e]; exact hth
      exact (div_pos_iff_of_pos_right hvj).1 this
    exact absurd (le_of_mul_le_mul_right h2 h5) (not_le.2 hmu)
  have hic : i = c₀ := hunique i hi hvi rfl
  subst hic
  refine ⟨hv', fun d hd hne => ⟨?_, fun hvd => ?_⟩⟩
  · have := hall _ (fun c hc h => hmax c (Finset.mem_filter.2 ⟨hc, h⟩)) d hd
    rw [div_mul_eq_mul_div, le_div_iff₀ hv] at this
    linarith
  · have h1 := hmax d (Finset.mem_filter.2 ⟨hd, hvd⟩)
    have h2 : v' d / v d ≠ v' i / v i := fun e => hne (hunique d hd hvd e)
    have h3 := lt_of_le_of_ne h1 h2
    rw [div_lt_div_iff₀ hvd hv] at h3
    linarith

end TD
