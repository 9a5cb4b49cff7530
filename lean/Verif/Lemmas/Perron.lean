import Verif.Props.ConvergenceAvlog
import Verif.Lemmas.Support
import Verif.Spec.Linked
/-! Non-negative eigenvectors of the update of Sums and AverageLog. -/

namespace TD
open Spec Ex Filter Topology
attribute [-instance] instBEqProd

variable {S V X : Type} [DecidableEq S] [DecidableEq V] [DecidableEq X] {l : List (S × V × X)}

/-- Non-negative trust scores that the update, with weights `w`, multiplies by `mu`. -/
structure Eig (l : List (S × V × X)) (w : S → ℝ) (mu : ℝ) (T : S → ℝ) : Prop where
  nonneg : ∀ s ∈ allSources l, 0 ≤ T s
  eq : ∀ s ∈ allSources l, w s * sumTrust l (sumBelief l T) s = mu * T s

/-- Linked by claims shared by sources of positive weight. -/
def LinkedW (l : List (S × V × X)) (w : S → ℝ) : S → S → Prop :=
  Relation.ReflTransGen fun s s' => (s ∈ allSources l ∧ 0 < w s) ∧ (s' ∈ allSources l ∧ 0 < w s') ∧
    ∃ c, (s, c) ∈ recorded l ∧ (s', c) ∈ recorded l

theorem LinkedW.symm {w : S → ℝ} {s s' : S} (h : LinkedW l w s s') : LinkedW l w s' s := by
  induction h with
  | refl => exact .refl
  | tail _ h ih =>
    obtain ⟨ha, hb, c, h1, h2⟩ := h
    exact .head ⟨hb, ha, c, h2, h1⟩ ih

namespace Eig
variable {w : S → ℝ} {mu : ℝ} {T : S → ℝ}

theorem sumBelief_nonneg (h : Eig l w mu T) (c : V × X) : 0 ≤ sumBelief l T c :=
  Finset.sum_nonneg fun _ hs => h.nonneg _ ((mem_allSources l).2 (mem_sources_of_sourcesOf l hs))

theorem zero (h : Eig l w mu T) {s s' : S} {c : V × X} (hw : 0 < w s) (h1 : (s, c) ∈ recorded l)
    (h2 : (s', c) ∈ recorded l) (h0 : T s = 0) : T s' = 0 := by
  have hs : s ∈ allSources l := (mem_allSources l).2 (mem_sources_of_sourcesOf l ((mem_sourcesOf l).2 h1))
  have e := h.eq s hs
  rw [h0, mul_zero, mul_eq_zero] at e
  have e := e.resolve_left hw.ne'
  have e1 := (Finset.sum_eq_zero_iff_of_nonneg fun c _ => h.sumBelief_nonneg c).1 e c ((mem_claimsOf l).2 h1)
  exact (Finset.sum_eq_zero_iff_of_nonneg fun s hs =>
    h.nonneg s ((mem_allSources l).2 (mem_sources_of_sourcesOf l hs))).1 e1 s' ((mem_sourcesOf l).2 h2)

theorem zero_linked (h : Eig l w mu T) {s s' : S} (hl : LinkedW l w s s') (h0 : T s = 0) : T s' = 0 := by
  induction hl with
  | refl => exact h0
  | tail _ h2 ih =>
    obtain ⟨hb, -, c, h3, h4⟩ := h2
    exact h.zero hb.2 h3 h4 ih

theorem zero_weight (h : Eig l w mu T) (hmu : 0 < mu) {s : S} (hs : s ∈ allSources l) (hw : w s = 0) : T s = 0 := by
  have e := h.eq s hs
  rw [hw, zero_mul] at e
  exact (mul_eq_zero.1 e.symm).resolve_left hmu.ne'

theorem pos_linked (h : Eig l w mu T) {s s' : S} (hl : LinkedW l w s s') (hs' : s' ∈ allSources l) (h0 : 0 < T s) :
    0 < T s' :=
  lt_of_le_of_ne (h.nonneg s' hs') fun e => h0.ne' (h.zero_linked hl.symm e.symm)

theorem inner (T T' : S → ℝ) : ∑ s ∈ allSources l, T s * sumTrust l (sumBelief l T') s =
    ∑ c ∈ allClaims l, sumBelief l T c * sumBelief l T' c := by
  have : ∀ c, sumBelief l T c * sumBelief l T' c = ∑ s ∈ sourcesOf l c, T s * sumBelief l T' c := by
    intro c
    rw [← Finset.sum_mul]; rfl
  rw [Finset.sum_congr rfl fun c _ => this c, sum_swap fun c s => T s * sumBelief l T' c]
  refine Finset.sum_congr rfl fun s _ => ?_
  rw [← Finset.mul_sum]; rfl

theorem mu_eq {mu' : ℝ} {T' : S → ℝ} (hw : ∀ s ∈ allSources l, 0 ≤ w s) (h : Eig l w mu T) (h' : Eig l w mu' T')
    (hmu : 0 < mu) (hmu' : 0 < mu') {s0 : S} (hs0 : s0 ∈ allSources l) (h0 : 0 < T s0) (h0' : 0 < T' s0) :
    mu = mu' := by
  have key : ∀ {mu mu' : ℝ} {T T' : S → ℝ}, Eig l w mu T → Eig l w mu' T' → 0 < mu → 0 < mu' →
      ∑ s ∈ allSources l, T s * sumTrust l (sumBelief l T') s = mu' * ∑ s ∈ allSources l, T s * T' s / w s := by
    intro mu mu' T T' h h' hmu hmu'
    rw [Finset.mul_sum]
    refine Finset.sum_congr rfl fun s hs => ?_
    by_cases hz : w s = 0
    · rw [h.zero_weight hmu hs hz, hz]; simp
    · have := h'.eq s hs
      field_simp
      rw [mul_assoc, mul_comm _ (w s), this]
      ring
  have e1 := key h h' hmu hmu'
  have e2 := key h' h hmu' hmu
  rw [inner] at e1 e2
  have e3 : ∑ c ∈ allClaims l, sumBelief l T c * sumBelief l T' c = ∑ c ∈ allClaims l, sumBelief l T' c * sumBelief l T c :=
    Finset.sum_congr rfl fun c _ => mul_comm _ _
  have e4 : ∑ s ∈ allSources l, T' s * T s / w s = ∑ s ∈ allSources l, T s * T' s / w s :=
    Finset.sum_congr rfl fun c _ => by rw [mul_comm]
  rw [e3, e2, e4] at e1
  have hpos : 0 < ∑ s ∈ allSources l, T s * T' s / w s := by
    have hws : 0 < w s0 := lt_of_le_of_ne (hw s0 hs0) fun e => h0.ne' (h.zero_weight hmu hs0 e.symm)
    refine Finset.sum_pos' (fun s hs => div_nonneg (mul_nonneg (h.nonneg s hs) (h'.nonneg s hs)) (hw s hs))
      ⟨s0, hs0, by positivity⟩
  exact mul_right_cancel₀ hpos.ne' e1

theorem sub {mu : ℝ} {T T' : S → ℝ} (h : Eig l w mu T) (h' : Eig l w mu T') {c : ℝ}
    (hc : ∀ s ∈ allSources l, c * T s ≤ T' s) : Eig l w mu fun s => T' s - c * T s := by
  refine ⟨fun s hs => sub_nonneg.2 (hc s hs), fun s hs => ?_⟩
  have e : sumTrust l (sumBelief l fun s => T' s - c * T s) s =
      sumTrust l (sumBelief l T') s - c * sumTrust l (sumBelief l T) s := by
    simp only [sumTrust, sumBelief, Finset.sum_sub_distrib, Finset.mul_sum]
  rw [e, mul_sub, h'.eq s hs, mul_left_comm, h.eq s hs]
  ring

/-- If all sources of positive weight are linked, there is only one eigenvector up to a factor, and it is
positive on all of them. -/
theorem unique {mu' : ℝ} {T' : S → ℝ} (hw : ∀ s ∈ allSources l, 0 ≤ w s) (h : Eig l w mu T) (h' : Eig l w mu' T')
    (hmu : 0 < mu) (hmu' : 0 < mu')
    (hconn : ∀ s s', s ∈ allSources l → 0 < w s → s' ∈ allSources l → 0 < w s' → LinkedW l w s s')
    (h0 : ∃ s ∈ allSources l, 0 < T s) (h0' : ∃ s ∈ allSources l, 0 < T' s) :
    (∀ s ∈ allSources l, 0 < w s → 0 < T s) ∧ ∃ c, 0 < c ∧ ∀ s ∈ allSources l, T' s = c * T s := by
  have hpos : ∀ {mu : ℝ} {T : S → ℝ}, Eig l w mu T → 0 < mu → (∃ s ∈ allSources l, 0 < T s) →
      ∀ s ∈ allSources l, 0 < w s → 0 < T s := by
    rintro mu T h hmu ⟨s0, hs0, h0⟩ s hs hws
    have hws0 : 0 < w s0 := lt_of_le_of_ne (hw s0 hs0) fun e => h0.ne' (h.zero_weight hmu hs0 e.symm)
    exact h.pos_linked (hconn s0 s hs0 hws0 hs hws) hs h0
  have hT := hpos h hmu h0
  have hT' := hpos h' hmu' h0'
  refine ⟨hT, ?_⟩
  obtain ⟨s0, hs0, hp0⟩ := h0
  have hws0 : 0 < w s0 := lt_of_le_of_ne (hw s0 hs0) fun e => hp0.ne' (h.zero_weight hmu hs0 e.symm)
  have hmm : mu = mu' := mu_eq hw h h' hmu hmu' hs0 hp0 (hT' s0 hs0 hws0)
  subst hmm
  obtain ⟨a, ha, hmin⟩ := Finset.exists_min_image ((allSources l).filter fun s => 0 < w s) (fun s => T' s / T s)
    ⟨s0, by simp only [Finset.mem_filter]; exact ⟨hs0, hws0⟩⟩
  simp only [Finset.mem_filter] at ha hmin
  have hTa := hT a ha.1 ha.2
  refine ⟨T' a / T a, div_pos (hT' a ha.1 ha.2) hTa, fun s hs => ?_⟩
  by_cases hws : 0 < w s
  · have hsub : Eig l w mu fun s => T' s - T' a / T a * T s := by
      refine sub h h' fun s hs => ?_
      by_cases hws : 0 < w s
      · exact (le_div_iff₀ (hT s hs hws)).1 (hmin s ⟨hs, hws⟩)
      · have hz : w s = 0 := le_antisymm (not_lt.1 hws) (hw s hs)
        rw [h.zero_weight hmu hs hz, h'.zero_weight hmu hs hz, mul_zero]
    have := hsub.zero_linked (hconn a s ha.1 ha.2 hs hws) (by rw [div_mul_cancel₀ _ hTa.ne', sub_self])
    exact sub_eq_zero.1 this
  · have hz : w s = 0 := le_antisymm (not_lt.1 hws) (hw s hs)
    rw [h.zero_weight hmu hs hz, h'.zero_weight hmu hs hz, mul_zero]

end Eig

/-- The growth of Sums. -/
theorem sums_eig (hl : l ≠ []) {prior : V × X → ℝ} (hp : ∀ c ∈ claims l, 0 < prior c) :
    ∃ (mu : ℝ) (T : S → ℝ), 0 < mu ∧ Eig l (fun _ => 1) mu T ∧ 0 < top (allSources l) T ∧
      0 < top (allClaims l) (sumBelief l T) ∧
      (∀ s ∈ allSources l, Tendsto (fun k : Nat => (usums l prior (k + 1)).1 s / mu ^ k) atTop (𝓝 (T s))) ∧
      (∀ s ∈ allSources l, Tendsto (fun k => ((sumsStep l)^[k] ((fun _ => 0), prior)).1 s) atTop
        (𝓝 (scaled (allSources l) T s))) ∧
      (∀ c ∈ allClaims l, Tendsto (fun k => ((sumsStep l)^[k] ((fun _ => 0), prior)).2 c) atTop
        (𝓝 (scaled (allClaims l) (sumBelief l T) c))) := by
  obtain ⟨mu, T, hmu, hT0, htop, htopC, hT, hB, h1, h2⟩ := sums_growth hl hp
  refine ⟨mu, T, hmu, ⟨hT0, fun s hs => ?_⟩, htop, htopC, hT, h1, h2⟩
  have e1 : Tendsto (fun k : Nat => (usums l prior (k + 2)).1 s / mu ^ k) atTop (𝓝 (sumTrust l (sumBelief l T) s)) := by
    have e : ∀ k : Nat, (usums l prior (k + 2)).1 s / mu ^ k =
        ∑ c ∈ claimsOf l s, (usums l prior (k + 1)).2 c / mu ^ k := by
      intro k
      rw [← Finset.sum_div, usums_succ]; rfl
    simp only [e]
    exact tendsto_finsetSum _ fun c hc => hB c ((mem_allClaims l).2 (mem_claims_of_claimsOf l hc))
  have e2 : Tendsto (fun k : Nat => (usums l prior (k + 2)).1 s / mu ^ k) atTop (𝓝 (T s * mu)) := by
    have := ((tendsto_add_atTop_iff_nat 1).2 (hT s hs)).mul_const mu
    refine this.congr fun k => ?_
    rw [pow_succ]
    field_simp
  rw [one_mul, tendsto_nhds_unique e1 e2, mul_comm]

/-- The growth of AverageLog. -/
theorem avlog_eig (hm : ∃ s, Multi l s) {prior : V × X → ℝ} (hp : ∀ c ∈ claims l, 0 < prior c) :
    ∃ (mu : ℝ) (T : S → ℝ), 0 < mu ∧ Eig l (weight l) mu T ∧ 0 < top (allSources l) T ∧
      0 < top (allClaims l) (sumBelief l T) ∧
      (∀ s ∈ allSources l, Tendsto (fun k => ((avlogStep l)^[k] ((fun _ => 0), prior)).1 s) atTop
        (𝓝 (scaled (allSources l) T s))) ∧
      (∀ c ∈ allClaims l, Tendsto (fun k => ((avlogStep l)^[k] ((fun _ => 0), prior)).2 c) atTop
        (𝓝 (scaled (allClaims l) (sumBelief l T) c))) := by
  obtain ⟨mu, L, hmu, hL0, hS, hC, heig, h1, h2⟩ := avlog_growth hm hp
  have hsc : ∀ c ∈ allClaims l, scaled (allClaims l) (sumBelief l (avT l L)) c = scaled (allClaims l) L c := by
    intro c hc
    rw [← scaled_smul (allClaims l) L hmu]
    unfold scaled
    rw [heig c hc]
    congr 1
    unfold top
    split
    · exact Finset.sup'_congr _ rfl fun c hc => heig c hc
    · rfl
  refine ⟨mu, avT l L, hmu, ⟨?_, ?_⟩, hS, ?_, h1, ?_⟩
  · exact fun s hs => avT_nonneg (fun c hc => hL0 c ((mem_allClaims l).2 hc)) ((mem_allSources l).1 hs)
  · intro s hs
    have e : sumTrust l (sumBelief l (avT l L)) s = mu * sumTrust l L s := by
      unfold sumTrust
      rw [Finset.mul_sum]
      exact Finset.sum_congr rfl fun c hc => heig c ((mem_allClaims l).2 (mem_claims_of_claimsOf l hc))
    rw [e]
    show weight l s * _ = mu * (weight l s * _)
    ring
  · have hl : l ≠ [] := by
      rintro rfl
      obtain ⟨s, hs⟩ := hm
      simpa [sources, firsts, firstsBy] using multi_mem hs
    obtain ⟨c, hc, e⟩ := top_mem (f := L) (allClaims_nonempty hl)
    refine top_pos hc ?_
    rw [heig c hc, e]
    exact mul_pos hmu hC
  · intro c hc
    rw [hsc c hc]
    exact h2 c hc

theorem weight_pos_iff {s : S} (hs : s ∈ allSources l) : 0 < weight l s ↔ 2 ≤ (claimsOf l s).card := by
  have h1 : 1 ≤ (claimsOf l s).card := (claimsOf_nonempty l ((mem_allSources l).1 hs)).card_pos
  constructor
  · intro h
    by_contra hc
    have : (claimsOf l s).card = 1 := by omega
    have e : weight l s = 0 := by
      show Real.log (nClaims l s) / nClaims l s = 0
      unfold nClaims
      rw [this]
      simp
    rw [e] at h
    exact lt_irrefl _ h
  · intro h
    have : (2 : ℝ) ≤ nClaims l s := by unfold nClaims; exact_mod_cast h
    exact div_pos (Real.log_pos (by linarith)) (by linarith)

end TD
