import Verif.Lemmas.Perron
import Verif.Props.Unbounded
/-!
# C95: the limits of Sums and AverageLog

Exact arithmetic.
-/

namespace TD
open Spec Ex Filter Topology
attribute [-instance] instBEqProd

variable {S V X : Type} [DecidableEq S] [DecidableEq V] [DecidableEq X] {l : List (S × V × X)}

theorem runsTendTo_of {k : Kind Ex} (hk : k ≠ .unboundedSums) {p : Prior} {f : Option (V → X → X → Option Ex)}
    {init : Scores S V X} {step : Scores S V X → Scores S V X} {cmp : Scores S V X → (S → ℝ) × (S → ℝ)}
    {Inv : Scores S V X → Prop} (H : ∀ it, Implements ⟨k, it, some p⟩ l f init step cmp Inv) {q : Scores S V X}
    (h1 : ∀ s ∈ allSources l, Tendsto (fun n => (step^[n] init).1 s) atTop (𝓝 (q.1 s)))
    (h2 : ∀ c ∈ allClaims l, Tendsto (fun n => (step^[n] init).2 c) atTop (𝓝 (q.2 c))) :
    RunsTendTo k p l (datasetOf l f) q := by
  intro ε hε
  have e1 : ∀ᶠ n in atTop, ∀ s ∈ allSources l, |(step^[n] init).1 s - q.1 s| < ε := by
    rw [Filter.eventually_all_finset]
    intro s hs
    exact (Metric.tendsto_nhds.1 (h1 s hs) ε hε).mono fun n hn => by rwa [Real.dist_eq] at hn
  have e2 : ∀ᶠ n in atTop, ∀ c ∈ allClaims l, |(step^[n] init).2 c - q.2 c| < ε := by
    rw [Filter.eventually_all_finset]
    intro s hs
    exact (Metric.tendsto_nhds.1 (h2 s hs) ε hε).mono fun n hn => by rwa [Real.dist_eq] at hn
  obtain ⟨N, hN⟩ := (e1.and e2).exists_forall_of_atTop
  refine ⟨N, fun it fuel clock st r hr hn => ?_⟩
  obtain ⟨n, h3, h4⟩ := (H it).run_reports hk hr
  obtain ⟨g1, g2⟩ := hN n (hn n h3)
  exact ⟨fun s hs => ⟨_, by rw [h4.1, if_pos hs], g1 s hs⟩, fun v x hx => ⟨_, by rw [h4.2, if_pos hx], g2 _ hx⟩⟩

/-- The weights of the sources. -/
noncomputable def weightOf (k : Kind Ex) (l : List (S × V × X)) : S → ℝ :=
  match k with
  | .averageLog => weight l
  | _ => fun _ => 1

theorem weightOf_nonneg (k : Kind Ex) {s : S} (hs : s ∈ allSources l) : 0 ≤ weightOf k l s := by
  cases k <;> first | exact weight_nonneg ((mem_allSources l).1 hs) | exact zero_le_one

theorem weightOf_pos (k : Kind Ex) (s : S) : (s ∈ allSources l ∧ 0 < weightOf k l s) ↔ Counts k l s := by
  unfold Counts
  refine and_congr_right fun hs => ?_
  cases k <;> first
    | (simp only [forall_const]; exact weight_pos_iff hs)
    | simp [weightOf]

theorem linked_iff (k : Kind Ex) (s s' : S) : LinkedW l (weightOf k l) s s' ↔ Linked k l s s' := by
  unfold LinkedW Linked
  simp only [weightOf_pos]

theorem averaging_ne_nil {k : Kind Ex} (h : Averaging k l) : l ≠ [] := by
  rcases h with ⟨-, h⟩ | ⟨-, s, hs⟩
  · exact h
  · rintro rfl
    simpa [sources, firsts, firstsBy] using multi_mem hs

theorem limit_eig {k : Kind Ex} (h : Averaging k l) (p : Prior) (f : Option (V → X → X → Option Ex)) :
    ∃ (mu : ℝ) (T : S → ℝ), 0 < mu ∧ Eig l (weightOf k l) mu T ∧ 0 < top (allSources l) T ∧
      0 < top (allClaims l) (sumBelief l T) ∧
      RunsTendTo k p l (datasetOf l f) (scaled (allSources l) T, scaled (allClaims l) (sumBelief l T)) := by
  have hp : ∀ c ∈ claims l, 0 < priorOf l p c := fun c hc => priorOf_pos p hc
  rcases h with ⟨rfl, hl⟩ | ⟨rfl, hm⟩
  · obtain ⟨mu, T, hmu, hT, h1, h2, -, h3, h4⟩ := sums_eig hl hp
    exact ⟨mu, T, hmu, hT, h1, h2,
      runsTendTo_of (by simp) (fun it => sums_implements f hl it p) h3 h4⟩
  · obtain ⟨mu, T, hmu, hT, h1, h2, h3, h4⟩ := avlog_eig hm hp
    exact ⟨mu, T, hmu, hT, h1, h2,
      runsTendTo_of (by simp) (fun it => avlog_implements f it p hm) h3 h4⟩

theorem scaled_of_smul {A : Type} {F : Finset A} {f g : A → ℝ} {c : ℝ} (hc : 0 < c) (h : ∀ a ∈ F, g a = c * f a)
    {a : A} (ha : a ∈ F) : scaled F g a = scaled F f a := by
  rw [← scaled_smul F f hc]
  unfold scaled
  rw [h a ha]
  congr 1
  unfold top
  split
  · exact Finset.sup'_congr _ rfl h
  · rfl

theorem runsTendTo_congr {k : Kind Ex} {p : Prior} {d : Dataset S V X Ex} {q q' : Scores S V X}
    (h : RunsTendTo k p l d q) (h1 : ∀ s ∈ allSources l, q.1 s = q'.1 s) (h2 : ∀ c ∈ allClaims l, q.2 c = q'.2 c) :
    RunsTendTo k p l d q' := by
  intro ε hε
  obtain ⟨N, hN⟩ := h ε hε
  refine ⟨N, fun it fuel clock st r hr hn => ?_⟩
  obtain ⟨g1, g2⟩ := hN it fuel clock st r hr hn
  refine ⟨fun s hs => ?_, fun v x hx => ?_⟩
  · rw [← h1 s hs]; exact g1 s hs
  · rw [← h2 _ hx]; exact g2 v x hx

/-- **C95.** If the sources (for AverageLog: those with two claims) are linked by the claims they share, the
scores of Sums (AverageLog) tend to the same limit whatever the prior beliefs.  The limit is positive for all
these sources and their claims (and 0 for all others), with largest trust and largest belief 1. -/
theorem C95_limit {k : Kind Ex} (h : Averaging k l) (hc : AllLinked k l) {am : Bool} {f : Option (V → X → X → Option Ex)}
    {d : Dataset S V X Ex} (hd : Dataset.mk' l am f = .ok d) :
    ∃ q : Scores S V X, (∀ p, RunsTendTo k p l d q) ∧
      (∀ s ∈ allSources l, 0 ≤ q.1 s ∧ q.1 s ≤ 1 ∧ (0 < q.1 s ↔ Counts k l s)) ∧
      (∀ c ∈ allClaims l, 0 ≤ q.2 c ∧ q.2 c ≤ 1 ∧ (0 < q.2 c ↔ ∃ s, Counts k l s ∧ (s, c) ∈ recorded l)) ∧
      (∃ s ∈ allSources l, q.1 s = 1) ∧ ∃ c ∈ allClaims l, q.2 c = 1 := by
  obtain rfl := mk'_ex hd
  have hl := averaging_ne_nil h
  obtain ⟨mu, T, hmu, hT, h1, h2, -⟩ := limit_eig h .fixed f
  have hconn : ∀ s s', s ∈ allSources l → 0 < weightOf k l s → s' ∈ allSources l → 0 < weightOf k l s' →
      LinkedW l (weightOf k l) s s' := fun s s' hs hw hs' hw' =>
    (linked_iff k s s').2 (hc s s' ((weightOf_pos k s).1 ⟨hs, hw⟩) ((weightOf_pos k s').1 ⟨hs', hw'⟩))
  have hex : ∀ {T : S → ℝ}, 0 < top (allSources l) T → ∃ s ∈ allSources l, 0 < T s := by
    intro T h
    obtain ⟨s, hs, e⟩ := top_mem (f := T) (allSources_nonempty hl)
    exact ⟨s, hs, by rw [e]; exact h⟩
  have hposT : ∀ s ∈ allSources l, 0 < T s ↔ Counts k l s := by
    intro s hs
    rw [← weightOf_pos]
    constructor
    · intro ht
      exact ⟨hs, lt_of_le_of_ne (weightOf_nonneg k hs) fun e => ht.ne' (hT.zero_weight hmu hs e.symm)⟩
    · rintro ⟨_, hw⟩
      exact (Eig.unique (fun s hs => weightOf_nonneg k hs) hT hT hmu hmu hconn (hex h1) (hex h1)).1 s hs hw
  refine ⟨(scaled (allSources l) T, scaled (allClaims l) (sumBelief l T)), ?_, ?_, ?_,
    scaled_max (allSources_nonempty hl) h1, scaled_max (allClaims_nonempty hl) h2⟩
  · intro p
    obtain ⟨mu', T', hmu', hT', h1', h2', h3'⟩ := limit_eig h p f
    obtain ⟨-, c, hcp, hcT⟩ := Eig.unique (fun s hs => weightOf_nonneg k hs) hT hT' hmu hmu' hconn (hex h1) (hex h1')
    refine runsTendTo_congr h3' (fun s hs => scaled_of_smul hcp hcT hs) fun c' hc' => scaled_of_smul hcp (fun c' _ => ?_) hc'
    simp only [sumBelief]
    rw [Finset.mul_sum]
    exact Finset.sum_congr rfl fun s hs => hcT s ((mem_allSources l).2 (mem_sources_of_sourcesOf l hs))
  · intro s hs
    refine ⟨div_nonneg (hT.nonneg s hs) h1.le, (div_le_one h1).2 (le_top hs), ?_⟩
    rw [← hposT s hs]
    exact div_pos_iff_of_pos_right h1
  · intro c hc'
    refine ⟨div_nonneg (hT.sumBelief_nonneg c) h2.le, (div_le_one h2).2 (le_top hc'), ?_⟩
    show 0 < sumBelief l T c / _ ↔ _
    rw [div_pos_iff_of_pos_right h2]
    constructor
    · intro hpos
      by_contra hcon
      refine hpos.ne' (Finset.sum_eq_zero fun s hs => ?_)
      have hs' := (mem_allSources l).2 (mem_sources_of_sourcesOf l hs)
      by_contra hne
      have := (hposT s hs').1 (lt_of_le_of_ne (hT.nonneg s hs') (Ne.symm hne))
      exact hcon ⟨s, this, (mem_sourcesOf l).1 hs⟩
    · rintro ⟨s, hs, hsc⟩
      exact Finset.sum_pos' (fun s hs => hT.nonneg s ((mem_allSources l).2 (mem_sources_of_sourcesOf l hs)))
        ⟨s, (mem_sourcesOf l).2 hsc, (hposT s hs.1).2 hs⟩

/-- **C95.** In general the limit may depend on the prior, but within a group of linked sources it is 0 for
all sources, or positive for all of them. -/
theorem C95_all_or_nothing {k : Kind Ex} (h : Averaging k l) {am : Bool} {f : Option (V → X → X → Option Ex)}
    {d : Dataset S V X Ex} (hd : Dataset.mk' l am f = .ok d) (p : Prior) :
    ∃ q : Scores S V X, RunsTendTo k p l d q ∧ (∀ s ∈ allSources l, 0 ≤ q.1 s ∧ q.1 s ≤ 1) ∧
      (∃ s ∈ allSources l, q.1 s = 1) ∧
      ∀ s ∈ allSources l, ∀ s' ∈ allSources l, Linked k l s s' → (0 < q.1 s ↔ 0 < q.1 s') := by
  obtain rfl := mk'_ex hd
  have hl := averaging_ne_nil h
  obtain ⟨mu, T, hmu, hT, h1, h2, h3⟩ := limit_eig h p f
  refine ⟨_, h3, fun s hs => ⟨div_nonneg (hT.nonneg s hs) h1.le, (div_le_one h1).2 (le_top hs)⟩,
    scaled_max (allSources_nonempty hl) h1, fun s hs s' hs' hss => ?_⟩
  have hss := (linked_iff k s s').2 hss
  show 0 < T s / _ ↔ 0 < T s' / _
  rw [div_pos_iff_of_pos_right h1, div_pos_iff_of_pos_right h1]
  exact ⟨hT.pos_linked hss hs', hT.pos_linked hss.symm hs⟩

theorem growth_le {a : Nat → ℝ} {D mu L : ℝ} (hmu : 0 < mu) (h0 : 0 < a 0) (hD : 0 ≤ D)
    (hs : ∀ k, D * a k ≤ a (k + 1)) (hlim : Tendsto (fun k => a k / mu ^ k) atTop (𝓝 L)) : D ≤ mu := by
  by_contra hcon
  have h1 : 1 < D / mu := (one_lt_div hmu).2 (not_le.1 hcon)
  have hge : ∀ k, D ^ k * a 0 ≤ a k := by
    intro k
    induction k with
    | zero => simp
    | succ k ih =>
      calc D ^ (k + 1) * a 0 = D * (D ^ k * a 0) := by ring
        _ ≤ D * a k := mul_le_mul_of_nonneg_left ih hD
        _ ≤ a (k + 1) := hs k
  have h2 : Tendsto (fun k => (D / mu) ^ k * a 0) atTop atTop :=
    (tendsto_pow_atTop_atTop_of_one_lt h1).atTop_mul_const h0
  have h3 : Tendsto (fun k => a k / mu ^ k) atTop atTop := by
    refine tendsto_atTop_mono (fun k => ?_) h2
    rw [div_pow, div_mul_eq_mul_div]
    exact div_le_div_of_nonneg_right (hge k) (pow_pos hmu k).le
  exact not_tendsto_nhds_of_tendsto_atTop h3 L hlim

/-- **C95.** A group of linked sources fades away if somewhere in the dataset there is a source with more claims
than the claims of any source of the group are made, or a claim with more sources than that: the trust scores of
Sums in the group, and the beliefs in its claims, tend to 0. -/
theorem C95_fades {am : Bool} {f : Option (V → X → X → Option Ex)} {d : Dataset S V X Ex}
    (hd : Dataset.mk' l am f = .ok d) {s : S} (hs : s ∈ allSources l) {D : ℝ}
    (hD : (∃ s0 ∈ allSources l, D ≤ (claimsOf l s0).card) ∨ ∃ c0 ∈ allClaims l, D ≤ (sourcesOf l c0).card)
    (hsmall : ∀ s' ∈ allSources l, Linked .sums l s s' → (∑ c ∈ claimsOf l s', (sourcesOf l c).card : ℝ) < D)
    (p : Prior) :
    ∃ q : Scores S V X, RunsTendTo .sums p l d q ∧ q.1 s = 0 ∧ ∀ c, (s, c) ∈ recorded l → q.2 c = 0 := by
  classical
  obtain rfl := mk'_ex hd
  have hl : l ≠ [] := by
    rintro rfl
    simp [allSources, recorded, firstsBy] at hs
  have hp : ∀ c ∈ claims l, 0 < priorOf l p c := fun c hc => priorOf_pos p hc
  obtain ⟨mu, T, hmu, hT, h1, h2, hu, h3, h4⟩ := sums_eig hl hp
  have hpos := fun k => (usums_pos hp k).2
  have hmuD : D ≤ mu := by
    have hB : ∀ k c, (usums l (priorOf l p) (k + 1)).2 c = sumBelief l (usums l (priorOf l p) (k + 1)).1 c := by
      intro k c; rw [usums_succ]; rfl
    have hTr : ∀ k s, (usums l (priorOf l p) (k + 2)).1 s = sumTrust l (usums l (priorOf l p) (k + 1)).2 s := by
      intro k s; rw [usums_succ]; rfl
    rcases hD with ⟨s0, hs0, hD⟩ | ⟨c0, hc0, hD⟩
    · refine hD.trans (growth_le hmu (a := fun k => (usums l (priorOf l p) (k + 1)).1 s0)
        (hpos 0 s0 ((mem_allSources l).1 hs0)) (Nat.cast_nonneg _) (fun k => ?_) (hu s0 hs0))
      show _ ≤ (usums l (priorOf l p) (k + 2)).1 s0
      rw [hTr, sumTrust, ← nsmul_eq_mul]
      refine Finset.card_nsmul_le_sum _ _ _ fun c hc => ?_
      rw [hB]
      exact Finset.single_le_sum (f := (usums l (priorOf l p) (k + 1)).1)
        (fun s hs => (hpos k s (mem_sources_of_sourcesOf l hs)).le)
        ((mem_sourcesOf l).2 ((mem_claimsOf l).1 hc))
    · refine hD.trans (growth_le hmu (a := fun k => (usums l (priorOf l p) (k + 1)).2 c0)
        (usums_pos hp 1 |>.1 c0 ((mem_allClaims l).1 hc0)) (Nat.cast_nonneg _) (fun k => ?_)
        (L := sumBelief l T c0) ?_)
      · show _ ≤ (usums l (priorOf l p) (k + 2)).2 c0
        rw [hB (k + 1), sumBelief, ← nsmul_eq_mul]
        refine Finset.card_nsmul_le_sum _ _ _ fun s hs => ?_
        rw [hTr]
        exact Finset.single_le_sum (f := (usums l (priorOf l p) (k + 1)).2)
          (fun c hc => ((usums_pos hp (k + 1)).1 c (mem_claims_of_claimsOf l hc)).le)
          ((mem_claimsOf l).2 ((mem_sourcesOf l).1 hs))
      · have e : ∀ k : Nat, (usums l (priorOf l p) (k + 1)).2 c0 / mu ^ k =
            ∑ s ∈ sourcesOf l c0, (usums l (priorOf l p) (k + 1)).1 s / mu ^ k := by
          intro k
          rw [← Finset.sum_div, hB]; rfl
        simp only [e]
        exact tendsto_finsetSum _ fun s hs => hu s ((mem_allSources l).2 (mem_sources_of_sourcesOf l hs))
  have hlink : ∀ {a b : S} {c : V × X}, (a, c) ∈ recorded l → (b, c) ∈ recorded l → Linked .sums l a b := by
    intro a b c ha hb
    exact .single ⟨⟨(mem_allSources l).2 (mem_sources_of_sourcesOf l ((mem_sourcesOf l).2 ha)), by simp⟩,
      ⟨(mem_allSources l).2 (mem_sources_of_sourcesOf l ((mem_sourcesOf l).2 hb)), by simp⟩, c, ha, hb⟩
  have hz : ∀ s' ∈ allSources l, Linked .sums l s s' → T s' = 0 := by
    obtain ⟨a, ha, hmax⟩ := Finset.exists_max_image ((allSources l).filter fun s' => Linked .sums l s s') T
      ⟨s, by simp only [Finset.mem_filter]; exact ⟨hs, .refl⟩⟩
    simp only [Finset.mem_filter] at ha hmax
    have e := hT.eq a ha.1
    rw [one_mul] at e
    have hle : sumTrust l (sumBelief l T) a ≤ (∑ c ∈ claimsOf l a, (sourcesOf l c).card : ℝ) * T a := by
      unfold sumTrust
      rw [Finset.sum_mul]
      refine Finset.sum_le_sum fun c hc => ?_
      rw [← nsmul_eq_mul]
      refine Finset.sum_le_card_nsmul _ _ _ fun s' hs' => ?_
      exact hmax s' ⟨(mem_allSources l).2 (mem_sources_of_sourcesOf l hs'),
        ha.2.trans (hlink ((mem_claimsOf l).1 hc) ((mem_sourcesOf l).1 hs'))⟩
    have hTa : T a = 0 := by
      by_contra hne
      have hTp : 0 < T a := lt_of_le_of_ne (hT.nonneg a ha.1) (Ne.symm hne)
      have := mul_lt_mul_of_pos_right ((hsmall a ha.1 ha.2).trans_le hmuD) hTp
      linarith
    intro s' hs' hss
    exact le_antisymm (by rw [← hTa]; exact hmax s' ⟨hs', hss⟩) (hT.nonneg s' hs')
  refine ⟨_, runsTendTo_of (by simp) (fun it => sums_implements f hl it p) (q := (scaled (allSources l) T,
    scaled (allClaims l) (sumBelief l T))) h3 h4, ?_, ?_⟩
  · show T s / _ = 0
    rw [hz s hs .refl, zero_div]
  · intro c hc
    show sumBelief l T c / _ = 0
    rw [sumBelief, Finset.sum_eq_zero fun s' hs' => hz s' ((mem_allSources l).2 (mem_sources_of_sourcesOf l hs'))
      (hlink hc ((mem_sourcesOf l).1 hs')), zero_div]

/-- Three sources, none linked to another; two of them disagree about a variable. -/
def unlinked : List (Nat × Nat × Nat) := [(0, 0, 0), (1, 1, 0), (2, 1, 1)]

theorem unlinked_step {p : Scores Nat Nat Nat} {x y : ℝ} (hy : 0 < y) (hxy : y ≤ x) (h0 : p.2 (0, 0) = x)
    (h1 : p.2 (1, 0) = y) (h2 : p.2 (1, 1) = y) :
    (sumsStep unlinked p).1 1 = y / x ∧ (sumsStep unlinked p).2 (0, 0) = 1 ∧ (sumsStep unlinked p).2 (1, 0) = y / x ∧
      (sumsStep unlinked p).2 (1, 1) = y / x := by
  have hx : 0 < x := hy.trans_le hxy
  have t0 : sumTrust unlinked p.2 0 = x := by
    rw [sumTrust, show claimsOf unlinked 0 = {(0, 0)} by decide, Finset.sum_singleton, h0]
  have t1 : sumTrust unlinked p.2 1 = y := by
    rw [sumTrust, show claimsOf unlinked 1 = {(1, 0)} by decide, Finset.sum_singleton, h1]
  have t2 : sumTrust unlinked p.2 2 = y := by
    rw [sumTrust, show claimsOf unlinked 2 = {(1, 1)} by decide, Finset.sum_singleton, h2]
  have b0 : sumBelief unlinked (sumTrust unlinked p.2) (0, 0) = x := by
    rw [sumBelief, show sourcesOf unlinked (0, 0) = {0} by decide, Finset.sum_singleton, t0]
  have b1 : sumBelief unlinked (sumTrust unlinked p.2) (1, 0) = y := by
    rw [sumBelief, show sourcesOf unlinked (1, 0) = {1} by decide, Finset.sum_singleton, t1]
  have b2 : sumBelief unlinked (sumTrust unlinked p.2) (1, 1) = y := by
    rw [sumBelief, show sourcesOf unlinked (1, 1) = {2} by decide, Finset.sum_singleton, t2]
  have hS : top (allSources unlinked) (sumTrust unlinked p.2) = x := by
    refine top_eq_of ?_ ⟨0, by decide, t0⟩
    rw [show allSources unlinked = {0, 1, 2} by decide]
    intro a ha
    simp only [Finset.mem_insert, Finset.mem_singleton] at ha
    rcases ha with rfl | rfl | rfl
    · exact t0.le
    · rw [t1]; exact hxy
    · rw [t2]; exact hxy
  have hC : top (allClaims unlinked) (sumBelief unlinked (sumTrust unlinked p.2)) = x := by
    refine top_eq_of ?_ ⟨(0, 0), by decide, b0⟩
    rw [show allClaims unlinked = {(0, 0), (1, 0), (1, 1)} by decide]
    intro a ha
    simp only [Finset.mem_insert, Finset.mem_singleton] at ha
    rcases ha with rfl | rfl | rfl
    · exact b0.le
    · rw [b1]; exact hxy
    · rw [b2]; exact hxy
  simp only [sumsStep, normBoth, scaled, hS, hC, t1, b0, b1, b2, div_self hx.ne', and_self]

theorem unlinked_iterate {p : Scores Nat Nat Nat} {x y : ℝ} (hy : 0 < y) (hxy : y ≤ x) (h0 : p.2 (0, 0) = x)
    (h1 : p.2 (1, 0) = y) (h2 : p.2 (1, 1) = y) (k : Nat) :
    ((sumsStep unlinked)^[k + 1] p).1 1 = y / x ∧ ((sumsStep unlinked)^[k + 1] p).2 (0, 0) = 1 ∧
      ((sumsStep unlinked)^[k + 1] p).2 (1, 0) = y / x ∧ ((sumsStep unlinked)^[k + 1] p).2 (1, 1) = y / x := by
  have hx : 0 < x := hy.trans_le hxy
  induction k with
  | zero => exact unlinked_step hy hxy h0 h1 h2
  | succ k ih =>
    rw [Function.iterate_succ_apply']
    have := unlinked_step (div_pos hy hx) ((div_le_one hx).2 hxy) ih.2.1 ih.2.2.1 ih.2.2.2
    simpa using this

/-- **C95**, limits: when sources are not linked, the prior beliefs are not forgotten: on this dataset, after
any number of iterations, the trust in source 1 is 1 with the prior 1/2 for all claims, and 1/2 with the prior
that shares 1 among the claims about a variable. -/
theorem C95_prior_matters {am : Bool} {d : Dataset Nat Nat Nat Ex} (hd : Dataset.mk' unlinked am none = .ok d)
    {it it' : IterCfg Ex} {fuel fuel' : Nat} {clock clock' : Nat → Ex} {st st' : IterState Ex}
    {r r' : Result Nat Nat Nat Ex} (hr : (⟨.sums, it, some .fixed⟩ : AlgCfg Ex).run d fuel clock st = .ok r)
    (hr' : (⟨.sums, it', some .uniform⟩ : AlgCfg Ex).run d fuel' clock' st' = .ok r')
    (hn : r.iterations ≠ some 0) (hn' : r'.iterations ≠ some 0) :
    r.trust.get? 1 = some (fin 1) ∧ r'.trust.get? 1 = some (fin (1 / 2)) := by
  have hl : unlinked ≠ [] := by decide
  obtain ⟨n, e, h⟩ := (C30_sums unlinked am none d hd hl it .fixed).1 fuel clock st r hr
  obtain ⟨n', e', h'⟩ := (C30_sums unlinked am none d hd hl it' .uniform).1 fuel' clock' st' r' hr'
  cases n with
  | zero => exact absurd e hn
  | succ n =>
    cases n' with
    | zero => exact absurd e' hn'
    | succ n' =>
      have a := unlinked_iterate (p := ((fun _ => 0), priorOf unlinked .fixed)) (x := 1 / 2) (y := 1 / 2)
        (by norm_num) le_rfl rfl rfl rfl n
      have u0 : priorOf unlinked .uniform (0, 0) = 1 := by
        show 1 / ((rivals unlinked (0, 0)).card : ℝ) = 1
        rw [show (rivals unlinked (0, 0)).card = 1 by decide]; norm_num
      have u1 : priorOf unlinked .uniform (1, 0) = 1 / 2 := by
        show 1 / ((rivals unlinked (1, 0)).card : ℝ) = 1 / 2
        rw [show (rivals unlinked (1, 0)).card = 2 by decide]; norm_num
      have u2 : priorOf unlinked .uniform (1, 1) = 1 / 2 := by
        show 1 / ((rivals unlinked (1, 1)).card : ℝ) = 1 / 2
        rw [show (rivals unlinked (1, 1)).card = 2 by decide]; norm_num
      have b := unlinked_iterate (p := ((fun _ => 0), priorOf unlinked .uniform)) (by norm_num) (by norm_num)
        u0 u1 u2 n'
      rw [h.1, h'.1, if_pos (by decide), if_pos (by decide), a.1, b.1]
      norm_num

/-! ### Examples -/

/-- Three linked sources and one that is not linked to them. -/
def strangers : List (Nat × Nat × Nat) := [(0, 0, 5), (1, 0, 5), (1, 1, 6), (2, 1, 6), (3, 2, 7)]

/-- Non-vacuity of `C95_limit`: sources 0, 1 and 2 are linked, 0 and 2 only by source 1. -/
example : Averaging .sums [(0, 0, 5), (1, 0, 5), (1, 1, 6), (2, 1, 6)] ∧
    AllLinked .sums [(0, 0, 5), (1, 0, 5), (1, 1, 6), (2, 1, 6)] := by
  refine ⟨.inl ⟨rfl, by simp⟩, ?_⟩
  have e : recorded [(0, 0, 5), (1, 0, 5), (1, 1, 6), (2, 1, 6)] = [(0, 0, 5), (1, 0, 5), (1, 1, 6), (2, 1, 6)] :=
    recorded_eq_self (by decide)
  have hs : ∀ s, Counts .sums [(0, 0, 5), (1, 0, 5), (1, 1, 6), (2, 1, 6)] s ↔ s = 0 ∨ s = 1 ∨ s = 2 := by
    intro s
    simp [Counts, allSources, e]
  have h01 : Linked .sums [(0, 0, 5), (1, 0, 5), (1, 1, 6), (2, 1, 6)] 0 1 :=
    .single ⟨(hs 0).2 (by simp), (hs 1).2 (by simp), (0, 5), by rw [e]; decide, by rw [e]; decide⟩
  have h10 : Linked .sums [(0, 0, 5), (1, 0, 5), (1, 1, 6), (2, 1, 6)] 1 0 :=
    .single ⟨(hs 1).2 (by simp), (hs 0).2 (by simp), (0, 5), by rw [e]; decide, by rw [e]; decide⟩
  have h12 : Linked .sums [(0, 0, 5), (1, 0, 5), (1, 1, 6), (2, 1, 6)] 1 2 :=
    .single ⟨(hs 1).2 (by simp), (hs 2).2 (by simp), (1, 6), by rw [e]; decide, by rw [e]; decide⟩
  have h21 : Linked .sums [(0, 0, 5), (1, 0, 5), (1, 1, 6), (2, 1, 6)] 2 1 :=
    .single ⟨(hs 2).2 (by simp), (hs 1).2 (by simp), (1, 6), by rw [e]; decide, by rw [e]; decide⟩
  intro s s' h h'
  rw [hs] at h h'
  have h1 : Linked .sums [(0, 0, 5), (1, 0, 5), (1, 1, 6), (2, 1, 6)] s 1 := by
    rcases h with rfl | rfl | rfl
    exacts [h01, .refl, h21]
  have h2 : Linked .sums [(0, 0, 5), (1, 0, 5), (1, 1, 6), (2, 1, 6)] 1 s' := by
    rcases h' with rfl | rfl | rfl
    exacts [h10, .refl, h12]
  exact h1.trans h2

/-- Non-vacuity of `C95_fades`: source 3, whose claim nobody disputes, fades away, as source 1 makes two claims. -/
example : (3 ∈ allSources strangers) ∧ (∃ s0 ∈ allSources strangers, (2 : ℝ) ≤ (claimsOf strangers s0).card) ∧
    ∀ s' ∈ allSources strangers, Linked .sums strangers 3 s' →
      (∑ c ∈ claimsOf strangers s', (sourcesOf strangers c).card : ℝ) < 2 := by
  have e : recorded strangers = strangers := recorded_eq_self (by decide)
  refine ⟨by decide, ⟨1, by decide, ?_⟩, fun s' hs' h => ?_⟩
  · rw [show (claimsOf strangers 1).card = 2 by decide]; norm_num
  · clear hs'
    have : s' = 3 := by
      induction h with
      | refl => rfl
      | tail _ h ih =>
        subst ih
        obtain ⟨-, -, c, h1, h2⟩ := h
        rw [e] at h1 h2
        simp only [strangers, List.mem_cons, Prod.mk.injEq, List.not_mem_nil, or_false] at h1 h2
        rcases h1 with h1 | h1 | h1 | h1 | h1 <;> simp at h1
        subst h1
        rcases h2 with h2 | h2 | h2 | h2 | h2 <;> simp at h2
        exact h2
    subst this
    rw [show claimsOf strangers 3 = {(2, 7)} by decide, Finset.sum_singleton,
      show (sourcesOf strangers (2, 7)).card = 1 by decide]
    norm_num

/-- Non-vacuity of `C95_prior_matters`: the runs exist, with any number of iterations. -/
example (clock : Nat → Ex) : ∃ (d : Dataset Nat Nat Nat Ex) (r r' : Result Nat Nat Nat Ex),
    Dataset.mk' unlinked false none = .ok d ∧
    (⟨.sums, .fixed 50, some .fixed⟩ : AlgCfg Ex).run d 100 clock {} = .ok r ∧
    (⟨.sums, .fixed 50, some .uniform⟩ : AlgCfg Ex).run d 100 clock {} = .ok r' ∧
    r.iterations ≠ some 0 ∧ r'.iterations ≠ some 0 := by
  obtain ⟨d, hd⟩ := exists_dataset unlinked (by decide)
  obtain ⟨r, hr, e, -⟩ := (C30_sums unlinked _ _ d hd (by decide) (.fixed 0) .fixed).2.2 50 100 clock {} (by norm_num)
  obtain ⟨r', hr', e', -⟩ := (C30_sums unlinked _ _ d hd (by decide) (.fixed 0) .uniform).2.2 50 100 clock {} (by norm_num)
  exact ⟨d, r, r', hd, hr, hr', by rw [e]; simp, by rw [e']; simp⟩

end TD
