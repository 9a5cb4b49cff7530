import Verif.Lemmas.Support
import Verif.Props.Part
import Verif.Props.Convergence
/-!
# C87: one more supporter of a claim

A new source, which makes a single claim that others already make, joins the dataset.
-/

namespace TD
open Spec Ex Filter Topology
attribute [-instance] instBEqProd

variable {S V X : Type} [DecidableEq S] [DecidableEq V] [DecidableEq X] {l l' : List (S × V × X)} {s₀ : S} {c₀ : V × X}
  {f : Option (V → X → X → Option ℝ)}

theorem Spec.Backed.ne_nil (h : Backed l l' s₀ c₀) : l ≠ [] ∧ l' ≠ [] := by
  constructor
  · rintro rfl
    obtain ⟨t, ht, -⟩ := h.made
    simp [recorded, firstsBy] at ht
  · rintro rfl
    have := (h.same (s₀, c₀)).2 (.inr rfl)
    simp [recorded, firstsBy] at this

theorem Spec.Reports.beliefIn {r : Result S V X Ex} {p : Scores S V X} (h : Reports l r p) {c : V × X} (hc : c ∈ allClaims l) {b : ℝ} :
    BeliefIn r c b ↔ b = p.2 c := by
  unfold BeliefIn
  rw [h.2 c.1 c.2, if_pos hc]
  simp only [Option.some.injEq, fin_inj]
  exact eq_comm

theorem Spec.Reports.trustIn {r : Result S V X Ex} {p : Scores S V X} (h : Reports l r p) {s : S} (hs : s ∈ allSources l) {t : ℝ} :
    TrustIn r s t ↔ t = p.1 s := by
  unfold TrustIn
  rw [h.1 s, if_pos hs]
  simp only [Option.some.injEq, fin_inj]
  exact eq_comm

theorem le_top' {A : Type} {F : Finset A} (f : A → ℝ) {a : A} (h : a ∈ F) : f a ≤ top F f := le_top h

theorem top_mem' {A : Type} {F : Finset A} {f : A → ℝ} (h : F.Nonempty) : ∃ a ∈ F, top F f = f a := by
  obtain ⟨a, ha, e⟩ := top_mem (f := f) h
  exact ⟨a, ha, e.symm⟩

theorem top_congr' {A : Type} {F : Finset A} {f g : A → ℝ} (h : ∀ a ∈ F, f a = g a) : top F f = top F g := by
  unfold top
  split
  · exact Finset.sup'_congr _ rfl h
  · rfl

/-! ### Voting -/

theorem Spec.Backed.nSources (h : Backed l l' s₀ c₀) (c : V × X) :
    Spec.nSources l' c = Spec.nSources l c + if c = c₀ then 1 else 0 := by
  unfold Spec.nSources
  by_cases hc : c = c₀
  · subst hc
    rw [h.sourcesOf_new, Finset.card_insert_of_notMem (h.not_mem_sourcesOf c), if_pos rfl]
    push_cast; rfl
  · rw [h.sourcesOf hc, if_neg hc, add_zero]

/-- **C87.** Voting: the belief in the supported claim does not fall, and rises if it was
below 1; no other belief rises. -/
theorem C87_voting (h : Backed l l' s₀ c₀) {am am' : Bool} {g g' : Option (V → X → X → Option Ex)} {d d' : Dataset S V X Ex}
    (hd : Dataset.mk' l am g = .ok d) (hd' : Dataset.mk' l' am' g' = .ok d') {clock clock' : Nat → Ex}
    {r r' : Result S V X Ex} (hr : votingRun d clock = .ok r) (hr' : votingRun d' clock' = .ok r') :
    (∃ b b' : ℝ, BeliefIn r c₀ b ∧ BeliefIn r' c₀ b' ∧ b ≤ b' ∧ (b < 1 → b < b')) ∧
    ∀ c ∈ allClaims l, c ≠ c₀ → ∃ b b' : ℝ, BeliefIn r c b ∧ BeliefIn r' c b' ∧ b' ≤ b := by
  obtain ⟨hl, hl'⟩ := h.ne_nil
  obtain ⟨x, hx, hrep, -⟩ := C29_voting l am g d hd hl clock
  obtain ⟨x', hx', hrep', -⟩ := C29_voting l' am' g' d' hd' hl' clock'
  rw [hr] at hx; cases hx
  rw [hr'] at hx'; cases hx'
  have hcl := h.claims
  have htop : 0 < top (allClaims l) (nSources l) := topC_pos hl fun c hc => nSources_pos l hc
  have hle : ∀ c ∈ allClaims l, nSources l c ≤ top (allClaims l) (nSources l) := fun c hc => le_top' _ hc
  have htop' : 0 < top (allClaims l') (nSources l') := topC_pos hl' fun c hc => nSources_pos l' hc
  have hle' : ∀ c ∈ allClaims l, nSources l' c ≤ top (allClaims l') (nSources l') := fun c hc => le_top' _ (hcl ▸ hc)
  obtain ⟨m, hm, em⟩ := top_mem' (f := nSources l') (F := allClaims l') ⟨c₀, hcl ▸ h.mem⟩
  obtain ⟨n, hn, en⟩ := top_mem' (f := nSources l) (F := allClaims l) ⟨c₀, h.mem⟩
  rw [hcl] at hm
  have hge : top (allClaims l) (nSources l) ≤ top (allClaims l') (nSources l') := by
    rw [en]
    refine le_trans ?_ (hle' n hn)
    rw [h.nSources]
    split <;> linarith
  refine ⟨⟨_, _, (hrep.beliefIn h.mem).2 rfl, (hrep'.beliefIn (hcl ▸ h.mem)).2 rfl, ?_⟩, fun c hc hne =>
    ⟨_, _, (hrep.beliefIn hc).2 rfl, (hrep'.beliefIn (hcl ▸ hc)).2 rfl, ?_⟩⟩
  · show nSources l c₀ / _ ≤ nSources l' c₀ / _ ∧ (nSources l c₀ / _ < 1 → nSources l c₀ / _ < nSources l' c₀ / _)
    have e0 := h.nSources c₀
    rw [if_pos rfl] at e0
    have hpos := nSources_pos l ((mem_allClaims l).1 h.mem)
    by_cases hmc : m = c₀
    · rw [hmc] at em
      have e1 : nSources l' c₀ / top (allClaims l') (nSources l') = 1 := by rw [em]; exact div_self (em ▸ htop'.ne')
      rw [e1]
      exact ⟨(div_le_one htop).2 (hle c₀ h.mem), id⟩
    · have e1 : top (allClaims l') (nSources l') = top (allClaims l) (nSources l) := by
        refine le_antisymm ?_ hge
        rw [em, h.nSources, if_neg hmc, add_zero]
        exact hle m hm
      rw [e1, e0]
      have : nSources l c₀ / top (allClaims l) (nSources l) < (nSources l c₀ + 1) / top (allClaims l) (nSources l) :=
        div_lt_div_of_pos_right (by linarith) htop
      exact ⟨this.le, fun _ => this⟩
  · show nSources l' c / _ ≤ nSources l c / _
    rw [h.nSources, if_neg hne, add_zero]
    exact div_le_div_of_nonneg_left (nSources_pos l ((mem_allClaims l).1 hc)).le htop hge

/-! ### Sums -/

theorem sums_growth' (hl : l ≠ []) (p : Prior) {q : V × X → ℝ}
    (h2 : ∀ c ∈ allClaims l, Tendsto (fun k => ((sumsStep l)^[k] ((fun _ => 0), priorOf l p)).2 c) atTop (𝓝 (q c))) :
    ∃ (mu : ℝ) (v : V × X → ℝ), Growth l (priorOf l p) mu v ∧ 0 < top (allClaims l) v ∧
      ∀ c ∈ allClaims l, q c = v c / top (allClaims l) v := by
  obtain ⟨mu, T, hmu, hT, htT, htB, -, l2, -, l4⟩ := sums_growth hl (prior := priorOf l p) (fun c hc => priorOf_pos p hc)
  refine ⟨mu, Spec.sumBelief l T, ⟨hmu, l2, fun c hc => Finset.sum_nonneg fun s hs => hT s ?_, ?_⟩, htB,
    fun c hc => tendsto_nhds_unique (h2 c hc) (l4 c hc)⟩
  · exact (mem_allSources l).2 (mem_sources_of_sourcesOf l hs)
  · obtain ⟨m, hm, em⟩ := top_mem' (f := Spec.sumBelief l T) (allClaims_nonempty hl)
    exact ⟨m, hm, em ▸ htB⟩

/-- **C87.** The beliefs to which Sums converges (C39), for any of the priors: the belief in the
supported claim does not fall, it rises if it was strictly between 0 and 1, and where it was
positive the claim now beats strictly every claim that it beat or equalled before. -/
theorem C87_sums_limit (h : Backed l l' s₀ c₀) (p p' : Prior) {q q' : V × X → ℝ}
    (hq : ∀ c ∈ allClaims l, Tendsto (fun k => ((sumsStep l)^[k] ((fun _ => 0), priorOf l p)).2 c) atTop (𝓝 (q c)))
    (hq' : ∀ c ∈ allClaims l', Tendsto (fun k => ((sumsStep l')^[k] ((fun _ => 0), priorOf l' p')).2 c) atTop (𝓝 (q' c))) :
    q c₀ ≤ q' c₀ ∧ (0 < q c₀ → q c₀ < 1 → q c₀ < q' c₀) ∧
    (0 < q c₀ → ∀ d ∈ allClaims l, d ≠ c₀ → q d ≤ q c₀ → q' d < q' c₀) := by
  obtain ⟨hl, hl'⟩ := h.ne_nil
  obtain ⟨mu, v, g, ht, e⟩ := sums_growth' hl p hq
  obtain ⟨mu', v', g', ht', e'⟩ := sums_growth' hl' p' hq'
  have hcl := h.claims
  have hc0 := h.mem
  have hc0' : c₀ ∈ allClaims l' := hcl ▸ hc0
  have hqnn : 0 ≤ q' c₀ := by rw [e' _ hc0']; exact div_nonneg (g'.nonneg _ hc0') ht'.le
  rcases (g.nonneg c₀ hc0).lt_or_eq with hv | hv
  · obtain ⟨hv', hcmp⟩ := growth_backed h (fun c hc => priorOf_pos p ((mem_allClaims l).1 hc))
      (fun c hc => priorOf_pos p' ((mem_allClaims l').1 (hcl ▸ hc))) g g' hv
    obtain ⟨m, hm, em⟩ := top_mem' (f := v') (F := allClaims l') ⟨c₀, hc0'⟩
    have hle := le_top' v hc0
    have main : q c₀ ≤ q' c₀ ∧ (q c₀ < 1 → q c₀ < q' c₀) := by
      rw [e _ hc0, e' _ hc0']
      by_cases hmc : m = c₀
      · rw [hmc] at em
        rw [em, div_self hv'.ne']
        exact ⟨(div_le_one ht).2 hle, id⟩
      · have hm' : m ∈ allClaims l := hcl ▸ hm
        have hpos : 0 < v m := by
          rcases (g.nonneg m hm').lt_or_eq with h1 | h1
          · exact h1
          · have h2 := (hcmp m hm' hmc).1
            rw [← h1, zero_mul] at h2
            have : 0 < v' m * v c₀ := mul_pos (em ▸ ht') hv
            linarith
        have h2 := (hcmp m hm' hmc).2 hpos
        have h3 : v m * v' c₀ ≤ top (allClaims l) v * v' c₀ := mul_le_mul_of_nonneg_right (le_top' v hm') hv'.le
        have : v c₀ / top (allClaims l) v < v' c₀ / top (allClaims l') v' := by
          rw [div_lt_div_iff₀ ht ht', em]
          linarith
        exact ⟨this.le, fun _ => this⟩
    refine ⟨main.1, fun _ => main.2, fun _ d hd hne hle => ?_⟩
    have hd' : d ∈ allClaims l' := hcl ▸ hd
    rw [e _ hc0, e _ hd, div_le_div_iff_of_pos_right ht] at hle
    rw [e' _ hc0', e' _ hd']
    refine div_lt_div_of_pos_right ?_ ht'
    obtain ⟨h1, h2⟩ := hcmp d hd hne
    rcases (g.nonneg d hd).lt_or_eq with hp | hp
    · have h3 := h2 hp
      have h4 : v d * v' c₀ ≤ v c₀ * v' c₀ := mul_le_mul_of_nonneg_right hle hv'.le
      by_contra hn
      have : v' c₀ * v c₀ ≤ v' d * v c₀ := mul_le_mul_of_nonneg_right (not_lt.1 hn) hv.le
      linarith
    · rw [← hp, zero_mul] at h1
      by_contra hn
      have : 0 < v' d * v c₀ := mul_pos (hv'.trans_le (not_lt.1 hn)) hv
      linarith
  · have h0 : q c₀ = 0 := by rw [e _ hc0, ← hv, zero_div]
    rw [h0]
    exact ⟨hqnn, fun hx => absurd hx (lt_irrefl _), fun hx => absurd hx (lt_irrefl _)⟩

/-- **C87.** Hence runs of Sums (any priors, iterators, starting states) which take sufficiently many
iterations: the belief in the supported claim falls by no more than any given amount. -/
theorem C87_sums (h : Backed l l' s₀ c₀) {am am' : Bool} {d d' : Dataset S V X Ex}
    (hd : Dataset.mk' l am (finImp f) = .ok d) (hd' : Dataset.mk' l' am' (finImp f) = .ok d') (p p' : Prior)
    {ε : ℝ} (hε : 0 < ε) :
    ∃ N : Nat, ∀ (it it' : IterCfg Ex) (fuel fuel' : Nat) (clock clock' : Nat → Ex) (st st' : IterState Ex)
      (r r' : Result S V X Ex) (n n' : Nat), N ≤ n → N ≤ n' →
      AlgCfg.run ⟨.sums, it, some p⟩ d fuel clock st = .ok r → r.iterations = some n →
      AlgCfg.run ⟨.sums, it', some p'⟩ d' fuel' clock' st' = .ok r' → r'.iterations = some n' →
      ∃ b b' : ℝ, BeliefIn r c₀ b ∧ BeliefIn r' c₀ b' ∧ b < b' + ε := by
  obtain rfl := mk'_ex hd
  obtain rfl := mk'_ex hd'
  obtain ⟨hl, hl'⟩ := h.ne_nil
  obtain ⟨q, -, h2, -⟩ := C39_converges l hl p
  obtain ⟨q', -, h2', -⟩ := C39_converges l' hl' p'
  obtain ⟨hlim, -⟩ := C87_sums_limit h p p' h2 h2'
  have hc0' : c₀ ∈ allClaims l' := h.claims ▸ h.mem
  obtain ⟨N1, hN1⟩ := (Metric.tendsto_atTop.1 (h2 c₀ h.mem)) (ε / 2) (by linarith)
  obtain ⟨N2, hN2⟩ := (Metric.tendsto_atTop.1 (h2' c₀ hc0')) (ε / 2) (by linarith)
  refine ⟨max N1 N2, fun it it' fuel fuel' clock clock' st st' r r' n n' hn hn' hr hi hr' hi' => ?_⟩
  obtain ⟨k, e1, rep⟩ := (sums_implements _ hl it p).run_reports (by simp) hr
  obtain ⟨k', e1', rep'⟩ := (sums_implements _ hl' it' p').run_reports (by simp) hr'
  rw [hi] at e1; cases e1
  rw [hi'] at e1'; cases e1'
  refine ⟨_, _, (rep.beliefIn h.mem).2 rfl, (rep'.beliefIn hc0').2 rfl, ?_⟩
  have a1 := hN1 n ((le_max_left _ _).trans hn)
  have a2 := hN2 n' ((le_max_right _ _).trans hn')
  rw [Real.dist_eq, abs_lt] at a1 a2
  linarith [a1.2, a2.1]

/-! ### TruthFinder -/

theorem impVal_nonneg (hf : NoContradiction f) (v : V) (x y : X) : 0 ≤ impVal f v x y := by
  cases f with
  | none => exact le_rfl
  | some g =>
    show 0 ≤ (g v x y).getD 0
    cases hg : g v x y with
    | none => exact le_rfl
    | some i => exact hf g rfl v x y i hg

theorem Spec.Backed.nClaims (h : Backed l l' s₀ c₀) {s : S} (hs : s ≠ s₀) : Spec.nClaims l' s = Spec.nClaims l s := by
  unfold Spec.nClaims; rw [h.claimsOf hs]

theorem tf_backed (h : Backed l l' s₀ c₀) (hf : NoContradiction f) {rho gamma : ℝ} (hrho : 0 ≤ rho) (hg : 0 ≤ gamma)
    {p p' : Scores S V X} (hp : TfInv l p) (hp' : TfInv l' p') (hle : ∀ s ∈ allSources l, p.1 s ≤ p'.1 s) :
    (∀ s ∈ allSources l, (tfStep l (impVal f) rho gamma p).1 s ≤ (tfStep l' (impVal f) rho gamma p').1 s) ∧
    (∀ c, (tfStep l (impVal f) rho gamma p).2 c ≤ (tfStep l' (impVal f) rho gamma p').2 c) ∧
    (0 < gamma → 0 < p'.1 s₀ → (tfStep l (impVal f) rho gamma p).2 c₀ < (tfStep l' (impVal f) rho gamma p').2 c₀) := by
  have htau : ∀ s ∈ allSources l, -Real.log (1 - p.1 s) ≤ -Real.log (1 - p'.1 s) := by
    intro s hs
    have h1 := hp' s ((mem_allSources l').1 (h.sources ▸ Finset.mem_insert_of_mem hs))
    have h2 := hp s ((mem_allSources l).1 hs)
    exact neg_le_neg (Real.log_le_log (by linarith [h1.2]) (by linarith [hle s hs]))
  have hs0 := hp' s₀ ((mem_allSources l').1 (h.sources ▸ Finset.mem_insert_self _ _))
  have hnew : 0 ≤ -Real.log (1 - p'.1 s₀) := by
    have := Real.log_nonpos (x := 1 - p'.1 s₀) (by linarith [hs0.2]) (by linarith [hs0.1])
    linarith
  have hmemS : ∀ {c : V × X} {s : S}, s ∈ Spec.sourcesOf l c → s ∈ allSources l := fun hs =>
    (mem_allSources l).2 (mem_sources_of_sourcesOf l hs)
  have hsig : ∀ c, (∑ s ∈ Spec.sourcesOf l c, -Real.log (1 - p.1 s)) + (if c = c₀ then -Real.log (1 - p'.1 s₀) else 0) ≤
      ∑ s ∈ Spec.sourcesOf l' c, -Real.log (1 - p'.1 s) := by
    intro c
    have := h.sumBelief (fun s => -Real.log (1 - p'.1 s)) c
    unfold Spec.sumBelief at this
    rw [this]
    exact add_le_add_left (Finset.sum_le_sum fun s hs => htau s (hmemS hs)) _
  have hsig0 : ∀ c, (∑ s ∈ Spec.sourcesOf l c, -Real.log (1 - p.1 s)) ≤ ∑ s ∈ Spec.sourcesOf l' c, -Real.log (1 - p'.1 s) := by
    intro c
    refine le_trans ?_ (hsig c)
    split
    · linarith
    · linarith
  have hrest : ∀ c, rho * ∑ d ∈ (Spec.rivals l c).erase c, impVal f c.1 d.2 c.2 * ∑ s ∈ Spec.sourcesOf l d, -Real.log (1 - p.1 s) ≤
      rho * ∑ d ∈ (Spec.rivals l' c).erase c, impVal f c.1 d.2 c.2 * ∑ s ∈ Spec.sourcesOf l' d, -Real.log (1 - p'.1 s) := by
    intro c
    rw [h.rivals]
    exact mul_le_mul_of_nonneg_left (Finset.sum_le_sum fun d _ =>
      mul_le_mul_of_nonneg_left (hsig0 d) (impVal_nonneg hf _ _ _)) hrho
  have hb : ∀ c, (tfStep l (impVal f) rho gamma p).2 c ≤ (tfStep l' (impVal f) rho gamma p').2 c := by
    intro c
    refine one_div_le_one_div_of_le (by positivity) ?_
    have := mul_le_mul_of_nonneg_left (add_le_add (hsig0 c) (hrest c)) hg
    have := Real.exp_le_exp.2 (neg_le_neg this)
    simp only [neg_mul]
    linarith
  refine ⟨fun s hs => ?_, hb, fun hg' hpos => ?_⟩
  · have hne : s ≠ s₀ := by rintro rfl; exact h.not_mem hs
    show (∑ c ∈ Spec.claimsOf l s, _) / Spec.nClaims l s ≤ (∑ c ∈ Spec.claimsOf l' s, _) / Spec.nClaims l' s
    rw [h.claimsOf hne, h.nClaims hne]
    exact div_le_div_of_nonneg_right (Finset.sum_le_sum fun c _ => hb c) (Nat.cast_nonneg _)
  · have hlog : 0 < -Real.log (1 - p'.1 s₀) := by
      have := Real.log_neg (x := 1 - p'.1 s₀) (by linarith [hs0.2]) (by linarith)
      linarith
    have h1 := hsig c₀
    rw [if_pos rfl] at h1
    have h2 := hrest c₀
    have h3 : (∑ s ∈ Spec.sourcesOf l c₀, -Real.log (1 - p.1 s)) + rho * ∑ d ∈ (Spec.rivals l c₀).erase c₀,
          impVal f c₀.1 d.2 c₀.2 * ∑ s ∈ Spec.sourcesOf l d, -Real.log (1 - p.1 s) <
        (∑ s ∈ Spec.sourcesOf l' c₀, -Real.log (1 - p'.1 s)) + rho * ∑ d ∈ (Spec.rivals l' c₀).erase c₀,
          impVal f c₀.1 d.2 c₀.2 * ∑ s ∈ Spec.sourcesOf l' d, -Real.log (1 - p'.1 s) := by linarith
    refine one_div_lt_one_div_of_lt (by positivity) ?_
    have := Real.exp_lt_exp.2 (neg_lt_neg (mul_lt_mul_of_pos_left h3 hg'))
    simp only [neg_mul]
    linarith

/-- **C87.** TruthFinder for the same number of iterations (with whatever iterators), where the
damping factor, the influence and the implications are not negative: no belief and no
trust of an old source falls.  If the damping factor and the initial trust are positive and
there is an iteration, the belief in the supported claim rises. -/
theorem C87_truthfinder (h : Backed l l' s₀ c₀) {am am' : Bool} {d d' : Dataset S V X Ex}
    (hd : Dataset.mk' l am (finImp f) = .ok d) (hd' : Dataset.mk' l' am' (finImp f) = .ok d') (hf : NoContradiction f)
    {rho gamma t0 : ℝ} (hrho : 0 ≤ rho) (hg : 0 ≤ gamma) (h0 : 0 ≤ t0) (h1 : t0 < 1) {pr pr' : Option Prior}
    {it it' : IterCfg Ex} {fuel fuel' : Nat} {clock clock' : Nat → Ex} {st st' : IterState Ex} {r r' : Result S V X Ex}
    (hr : AlgCfg.run ⟨.truthFinder (fin rho) (fin gamma) (fin t0), it, pr⟩ d fuel clock st = .ok r)
    (hr' : AlgCfg.run ⟨.truthFinder (fin rho) (fin gamma) (fin t0), it', pr'⟩ d' fuel' clock' st' = .ok r')
    (hn : r.iterations = r'.iterations) :
    (∀ s ∈ allSources l, ∃ t t' : ℝ, TrustIn r s t ∧ TrustIn r' s t' ∧ t ≤ t') ∧
    (∀ c ∈ allClaims l, ∃ b b' : ℝ, BeliefIn r c b ∧ BeliefIn r' c b' ∧ b ≤ b' ∧
      (c = c₀ → 0 < gamma → 0 < t0 → r.iterations ≠ some 0 → b < b')) := by
  obtain rfl := mk'_ex hd
  obtain rfl := mk'_ex hd'
  have H := tf_implements (l := l) f it pr rho gamma t0 h0 h1
  have H' := tf_implements (l := l') f it' pr' rho gamma t0 h0 h1
  obtain ⟨n, e, rep⟩ := H.run_reports (by simp) hr
  obtain ⟨n', e', rep'⟩ := H'.run_reports (by simp) hr'
  rw [e, e'] at hn
  cases hn
  have key : (∀ s ∈ allSources l, ((tfStep l (impVal f) rho gamma)^[n] ((fun _ => t0), fun _ => 0)).1 s ≤
        ((tfStep l' (impVal f) rho gamma)^[n] ((fun _ => t0), fun _ => 0)).1 s) ∧
      (∀ c, ((tfStep l (impVal f) rho gamma)^[n] ((fun _ => t0), fun _ => 0)).2 c ≤
        ((tfStep l' (impVal f) rho gamma)^[n] ((fun _ => t0), fun _ => 0)).2 c) ∧
      (0 < t0 → 0 < ((tfStep l' (impVal f) rho gamma)^[n] ((fun _ => t0), fun _ => 0)).1 s₀) ∧
      (0 < gamma → 0 < t0 → n ≠ 0 → ((tfStep l (impVal f) rho gamma)^[n] ((fun _ => t0), fun _ => 0)).2 c₀ <
        ((tfStep l' (impVal f) rho gamma)^[n] ((fun _ => t0), fun _ => 0)).2 c₀) := by
    clear rep rep' e e'
    induction n with
    | zero => exact ⟨fun _ _ => le_rfl, fun _ => le_rfl, id, fun _ _ hx => absurd rfl hx⟩
    | succ n ih =>
      obtain ⟨k1, k2, k3⟩ := tf_backed h hf hrho hg (H.inv_iterate n) (H'.inv_iterate n) ih.1
      rw [Function.iterate_succ_apply', Function.iterate_succ_apply']
      refine ⟨k1, k2, fun _ => ?_, fun hg' ht _ => k3 hg' (ih.2.2.1 ht)⟩
      refine div_pos ?_ ?_
      · rw [h.claimsOf_new, Finset.sum_singleton]
        exact sigmoid_pos _
      · unfold Spec.nClaims
        rw [h.claimsOf_new, Finset.card_singleton]
        norm_num
  refine ⟨fun s hs => ⟨_, _, (rep.trustIn hs).2 rfl, (rep'.trustIn (h.sources ▸ Finset.mem_insert_of_mem hs)).2 rfl, key.1 s hs⟩,
    fun c hc => ⟨_, _, (rep.beliefIn hc).2 rfl, (rep'.beliefIn (h.claims ▸ hc)).2 rfl, key.2.1 c, ?_⟩⟩
  rintro rfl hg' ht hz
  refine key.2.2.2 hg' ht ?_
  rintro rfl
  exact hz e

/-! ### AverageLog -/

theorem top_insert {A : Type} [DecidableEq A] {F : Finset A} {a : A} {f g : A → ℝ} (hF : F.Nonempty)
    (he : ∀ x ∈ F, f x = g x) (ha : f a = 0) (hg : 0 < top F g) : top (insert a F) f = top F g := by
  obtain ⟨m, hm, em⟩ := top_mem' (f := g) hF
  refine le_antisymm ?_ ?_
  · obtain ⟨n, hn, en⟩ := top_mem' (f := f) (F := insert a F) ⟨a, Finset.mem_insert_self _ _⟩
    rw [en]
    rcases Finset.mem_insert.1 hn with rfl | hn
    · rw [ha]; exact hg.le
    · rw [he n hn]; exact le_top' g hn
  · rw [em, ← he m hm]
    exact le_top' f (Finset.mem_insert_of_mem hm)

/-- **C87.** AverageLog does not notice a source with a single claim: with fixed or uniform priors and
the same number of iterations, the scores of all old sources and of all claims are the same,
and the new source has trust 0. -/
theorem C87_avlog (h : Backed l l' s₀ c₀) (hm : ∃ s, 2 ≤ (claimsOf l s).card) {am am' : Bool} {d d' : Dataset S V X Ex}
    (hd : Dataset.mk' l am (finImp f) = .ok d) (hd' : Dataset.mk' l' am' (finImp f) = .ok d')
    {p : Prior} (hp : p = .fixed ∨ p = .uniform)
    {it it' : IterCfg Ex} {fuel fuel' : Nat} {clock clock' : Nat → Ex} {st st' : IterState Ex} {r r' : Result S V X Ex}
    (hr : AlgCfg.run ⟨.averageLog, it, some p⟩ d fuel clock st = .ok r)
    (hr' : AlgCfg.run ⟨.averageLog, it', some p⟩ d' fuel' clock' st' = .ok r')
    (hn : r.iterations = r'.iterations) :
    TrustIn r' s₀ 0 ∧ (∀ s ∈ allSources l, ∃ t : ℝ, TrustIn r s t ∧ TrustIn r' s t) ∧
    (∀ c ∈ allClaims l, ∃ b : ℝ, BeliefIn r c b ∧ BeliefIn r' c b) := by
  obtain rfl := mk'_ex hd
  obtain rfl := mk'_ex hd'
  obtain ⟨hl, hl'⟩ := h.ne_nil
  have hm' : ∃ s, Multi l' s := by
    obtain ⟨s, hs⟩ := hm
    refine ⟨s, ?_⟩
    have hne : s ≠ s₀ := by
      rintro rfl
      exact h.not_mem ((mem_allSources l).2 (multi_mem hs))
    unfold Multi
    rw [h.claimsOf hne]
    exact hs
  have H := avlog_implements (l := l) (finImp f) it p hm
  have H' := avlog_implements (l := l') (finImp f) it' p hm'
  obtain ⟨n, e, rep⟩ := H.run_reports (by simp) hr
  obtain ⟨n', e', rep'⟩ := H'.run_reports (by simp) hr'
  rw [e, e'] at hn
  cases hn
  have hS0 : s₀ ∈ allSources l' := h.sources ▸ Finset.mem_insert_self _ _
  have key : ((avlogStep l')^[n] ((fun _ => 0), priorOf l' p)).1 s₀ = 0 ∧
      (∀ s ∈ allSources l, ((avlogStep l')^[n] ((fun _ => 0), priorOf l' p)).1 s =
        ((avlogStep l)^[n] ((fun _ => 0), priorOf l p)).1 s) ∧
      ∀ c ∈ allClaims l, ((avlogStep l')^[n] ((fun _ => 0), priorOf l' p)).2 c =
        ((avlogStep l)^[n] ((fun _ => 0), priorOf l p)).2 c := by
    clear rep rep' e e'
    induction n with
    | zero =>
      refine ⟨rfl, fun _ _ => rfl, fun c hc => ?_⟩
      rcases hp with rfl | rfl
      · rfl
      · show priorUniform l' c = priorUniform l c
        unfold priorUniform; rw [h.rivals]
    | succ n ih =>
      obtain ⟨i1, i2, i3⟩ := ih
      have hI := H.inv_iterate n
      rw [Function.iterate_succ_apply', Function.iterate_succ_apply']
      generalize (avlogStep l')^[n] ((fun _ => 0), priorOf l' p) = u' at *
      generalize (avlogStep l)^[n] ((fun _ => 0), priorOf l p) = u at *
      have hne : ∀ s ∈ allSources l, s ≠ s₀ := by rintro s hs rfl; exact h.not_mem hs
      have t0 : avT l' u'.2 s₀ = 0 := by
        unfold avT Spec.nClaims
        rw [h.claimsOf_new, Finset.card_singleton]
        simp
      have tS : ∀ s ∈ allSources l, avT l' u'.2 s = avT l u.2 s := by
        intro s hs
        unfold avT
        rw [h.nClaims (hne s hs), h.sumTrust _ (hne s hs)]
        congr 1
        exact Finset.sum_congr rfl fun c hc => i3 c (mem_claimsOf' hc)
      have bC : ∀ c ∈ allClaims l, Spec.sumBelief l' (avT l' u'.2) c = Spec.sumBelief l (avT l u.2) c := by
        intro c hc
        rw [h.sumBelief, t0, ite_self, add_zero]
        exact Finset.sum_congr rfl fun s hs => tS s ((mem_allSources l).2 (mem_sources_of_sourcesOf l hs))
      obtain ⟨htS, htC⟩ := avlog_top hm hI
      have eS : top (allSources l') (avT l' u'.2) = top (allSources l) (avT l u.2) := by
        rw [h.sources]
        exact top_insert (allSources_nonempty hl) tS t0 htS
      have eC : top (allClaims l') (Spec.sumBelief l' (avT l' u'.2)) = top (allClaims l) (Spec.sumBelief l (avT l u.2)) := by
        rw [h.claims]
        exact top_congr' bC
      refine ⟨?_, fun s hs => ?_, fun c hc => ?_⟩
      · show avT l' u'.2 s₀ / _ = 0
        rw [t0, zero_div]
      · show avT l' u'.2 s / top (allSources l') (avT l' u'.2) = avT l u.2 s / top (allSources l) (avT l u.2)
        rw [tS s hs, eS]
      · show Spec.sumBelief l' (avT l' u'.2) c / top (allClaims l') (Spec.sumBelief l' (avT l' u'.2)) =
          Spec.sumBelief l (avT l u.2) c / top (allClaims l) (Spec.sumBelief l (avT l u.2))
        rw [bC c hc, eC]
  refine ⟨(rep'.trustIn hS0).2 key.1.symm, fun s hs => ⟨_, (rep.trustIn hs).2 rfl,
    (rep'.trustIn (h.sources ▸ Finset.mem_insert_of_mem hs)).2 (key.2.1 s hs).symm⟩,
    fun c hc => ⟨_, (rep.beliefIn hc).2 rfl, (rep'.beliefIn (h.claims ▸ hc)).2 (key.2.2 c hc).symm⟩⟩

/-! ### PooledInvestment: more support can mean less belief -/

/-- Source 1 disagrees with source 0 about one variable and with source 2 about another. -/
abbrev pairTriples : List (Nat × Nat × Nat) := [(0, 1, 0), (1, 0, 1), (1, 1, 1), (2, 0, 0)]

/-- Source 3 agrees with source 1 about the first of them. -/
abbrev pairTriples' : List (Nat × Nat × Nat) := [(0, 1, 0), (1, 0, 1), (1, 1, 1), (2, 0, 0), (3, 1, 1)]

theorem pair_backed : Backed pairTriples pairTriples' 3 (1, 1) where
  same := by
    have e1 : recorded pairTriples' = pairTriples' := by decide
    have e2 : recorded pairTriples = pairTriples := by decide
    intro t
    rw [e1, e2]
    simp [or_assoc]
  new := by decide
  made := by decide

/-- Four trust scores. -/
def quadS (a b c d : ℝ) : Nat → ℝ
  | 0 => a
  | 1 => b
  | 2 => c
  | _ => d

/-- Four beliefs. -/
def quadC (a b c d : ℝ) : Nat × Nat → ℝ
  | (1, 0) => a
  | (0, 1) => b
  | (1, 1) => c
  | _ => d

theorem part_self (l : List (S × V × X)) : Part l l := ⟨fun _ h => h, fun _ h _ => h, fun _ h _ => h⟩

theorem pooled_raw {l : List (S × V × X)} (hl : l ≠ []) (g : ℝ) {a b : ℝ} (ha : 0 < a) (hb : 0 < b) {p p' : Scores S V X}
    (hp : Prop2 l a b p p') (hi : PosAll l p) (hi' : PosAll l p') :
    ∃ a b, 0 < a ∧ 0 < b ∧ Prop2 l a b (pooledStep l g p) (regained l p', fun c => invested l (regained l p') c *
      (invested l (regained l p') c ^ g / ∑ d ∈ Spec.rivals l c, invested l (regained l p') d ^ g)) := by
  obtain ⟨a, b, ha, hb, h1, h2⟩ := pooled_prop (part_self l) hl hl g ha hb hp hi hi'
  have t1 : 0 < top (allSources l) (regained l p') := topS_pos hl fun s hs => regained_pos hi' hs
  have t2 := topC_pos hl fun c hc => pooledB_pos hi' g hc
  refine ⟨a / _, b / _, div_pos ha t1, div_pos hb t2, fun s hs => ?_, fun c hc => ?_⟩
  · rw [h1 s hs]
    show a * (_ / _) = _
    rw [mul_div_assoc', div_mul_eq_mul_div]
  · rw [h2 c hc]
    show b * (_ / _) = _
    rw [mul_div_assoc', div_mul_eq_mul_div]

theorem prop2_pair {a b : ℝ} {p p' : Scores Nat Nat Nat} : Prop2 pairTriples' a b p p' ↔
    (p.1 0 = a * p'.1 0 ∧ p.1 1 = a * p'.1 1 ∧ p.1 2 = a * p'.1 2 ∧ p.1 3 = a * p'.1 3) ∧
    p.2 (1, 0) = b * p'.2 (1, 0) ∧ p.2 (0, 1) = b * p'.2 (0, 1) ∧ p.2 (1, 1) = b * p'.2 (1, 1) ∧
    p.2 (0, 0) = b * p'.2 (0, 0) := by
  have e1 : sources pairTriples' = [0, 1, 2, 3] := by decide
  have e2 : claims pairTriples' = [(1, 0), (0, 1), (1, 1), (0, 0)] := by decide
  unfold Prop2
  rw [e1, e2]
  simp

theorem posAll_pair {p : Scores Nat Nat Nat} : PosAll pairTriples' p ↔
    (0 < p.1 0 ∧ 0 < p.1 1 ∧ 0 < p.1 2 ∧ 0 < p.1 3) ∧
    0 < p.2 (1, 0) ∧ 0 < p.2 (0, 1) ∧ 0 < p.2 (1, 1) ∧ 0 < p.2 (0, 0) := by
  have e1 : sources pairTriples' = [0, 1, 2, 3] := by decide
  have e2 : claims pairTriples' = [(1, 0), (0, 1), (1, 1), (0, 0)] := by decide
  unfold PosAll
  rw [e1, e2]
  simp

theorem pair_invested (t : Nat → ℝ) : invested pairTriples' t (1, 0) = t 0 ∧ invested pairTriples' t (0, 1) = t 1 / 2 ∧
    invested pairTriples' t (1, 1) = t 1 / 2 + t 3 ∧ invested pairTriples' t (0, 0) = t 2 := by
  have s1 : sourcesOf pairTriples' (1, 0) = {0} := by decide
  have s2 : sourcesOf pairTriples' (0, 1) = {1} := by decide
  have s3 : sourcesOf pairTriples' (1, 1) = {1, 3} := by decide
  have s4 : sourcesOf pairTriples' (0, 0) = {2} := by decide
  have n0 : (claimsOf pairTriples' 0).card = 1 := by decide
  have n1 : (claimsOf pairTriples' 1).card = 2 := by decide
  have n2 : (claimsOf pairTriples' 2).card = 1 := by decide
  have n3 : (claimsOf pairTriples' 3).card = 1 := by decide
  simp [invested, s1, s2, s3, s4, Spec.nClaims, n0, n1, n2, n3]

theorem pair_regained (p : Scores Nat Nat Nat) (hp : PosAll pairTriples' p) :
    regained pairTriples' p 0 = p.2 (1, 0) ∧
    regained pairTriples' p 1 = p.2 (0, 1) + p.2 (1, 1) * ((p.1 1 / 2) / (p.1 1 / 2 + p.1 3)) ∧
    regained pairTriples' p 2 = p.2 (0, 0) ∧
    regained pairTriples' p 3 = p.2 (1, 1) * (p.1 3 / (p.1 1 / 2 + p.1 3)) := by
  obtain ⟨i1, i2, i3, i4⟩ := pair_invested p.1
  obtain ⟨⟨p0, p1, p2, p3⟩, -⟩ := posAll_pair.1 hp
  have c0 : claimsOf pairTriples' 0 = {(1, 0)} := by decide
  have c1 : claimsOf pairTriples' 1 = {(0, 1), (1, 1)} := by decide
  have c2 : claimsOf pairTriples' 2 = {(0, 0)} := by decide
  have c3 : claimsOf pairTriples' 3 = {(1, 1)} := by decide
  have hh : p.1 1 / 2 ≠ 0 := by positivity
  refine ⟨?_, ?_, ?_, ?_⟩
  · simp [regained, c0, Spec.nClaims, i1, p0.ne']
  · simp only [regained, c1, Spec.nClaims, Finset.sum_pair (show ((0, 1) : Nat × Nat) ≠ (1, 1) by decide), i2, i3,
      Finset.card_pair (show ((0, 1) : Nat × Nat) ≠ (1, 1) by decide), Nat.cast_ofNat, div_self hh, mul_one]
  · simp [regained, c2, Spec.nClaims, i4, p2.ne']
  · simp [regained, c3, Spec.nClaims, i3]

theorem pair_rivals (h : Nat × Nat → ℝ) (c : Nat × Nat) (hc : c ∈ allClaims pairTriples') :
    ∑ d ∈ Spec.rivals pairTriples' c, h d = h (c.1, 0) + h (c.1, 1) := by
  have e2 : allClaims pairTriples' = {(1, 0), (0, 1), (1, 1), (0, 0)} := by decide
  rw [e2] at hc
  simp only [Finset.mem_insert, Finset.mem_singleton] at hc
  have r0 : Spec.rivals pairTriples' (0, 0) = {(0, 0), (0, 1)} := by decide
  have r1 : Spec.rivals pairTriples' (0, 1) = {(0, 0), (0, 1)} := by decide
  have r2 : Spec.rivals pairTriples' (1, 0) = {(1, 0), (1, 1)} := by decide
  have r3 : Spec.rivals pairTriples' (1, 1) = {(1, 0), (1, 1)} := by decide
  rcases hc with rfl | rfl | rfl | rfl
  · rw [r2, Finset.sum_pair (by decide)]
  · rw [r1, Finset.sum_pair (by decide)]
  · rw [r3, Finset.sum_pair (by decide)]
  · rw [r0, Finset.sum_pair (by decide)]

/-- One step of PooledInvestment with exponent 2, up to the normalisation. -/
theorem pair_step {p : Scores Nat Nat Nat} {x0 x1 x2 x3 y0 y1 y2 y3 : ℝ}
    (hx : 0 < x0 ∧ 0 < x1 ∧ 0 < x2 ∧ 0 < x3) (hy : 0 < y0 ∧ 0 < y1 ∧ 0 < y2 ∧ 0 < y3) (hi : PosAll pairTriples' p)
    (h : ∃ a b, 0 < a ∧ 0 < b ∧ Prop2 pairTriples' a b p (quadS x0 x1 x2 x3, quadC y0 y1 y2 y3))
    {z0 z1 z2 z3 w0 w1 w2 w3 k m : ℝ} (hk : 0 < k) (hm : 0 < m) (e0 : k * z0 = y0) (e1 : k * z1 = y1 + y2 * ((x1 / 2) / (x1 / 2 + x3)))
    (e2 : k * z2 = y3) (e3 : k * z3 = y2 * (x3 / (x1 / 2 + x3)))
    (f0 : m * w0 = z0 ^ 3 / (z0 ^ 2 + (z1 / 2 + z3) ^ 2)) (f1 : m * w1 = (z1 / 2) ^ 3 / (z2 ^ 2 + (z1 / 2) ^ 2))
    (f2 : m * w2 = (z1 / 2 + z3) ^ 3 / (z0 ^ 2 + (z1 / 2 + z3) ^ 2)) (f3 : m * w3 = z2 ^ 3 / (z2 ^ 2 + (z1 / 2) ^ 2)) :
    ∃ a b, 0 < a ∧ 0 < b ∧ Prop2 pairTriples' a b (pooledStep pairTriples' 2 p) (quadS z0 z1 z2 z3, quadC w0 w1 w2 w3) := by
  obtain ⟨a, b, ha, hb, h⟩ := h
  have hi' : PosAll pairTriples' (quadS x0 x1 x2 x3, quadC y0 y1 y2 y3) := posAll_pair.2 ⟨hx, hy⟩
  obtain ⟨a', b', ha', hb', h'⟩ := pooled_raw (by simp) 2 ha hb h hi hi'
  obtain ⟨g0, g1, g2, g3⟩ := pair_regained _ hi'
  replace g0 := g0.trans e0.symm
  replace g1 := g1.trans e1.symm
  replace g2 := g2.trans e2.symm
  replace g3 := g3.trans e3.symm
  generalize regained pairTriples' (quadS x0 x1 x2 x3, quadC y0 y1 y2 y3) = t at *
  obtain ⟨i0, i1, i2, i3⟩ := pair_invested t
  rw [g0] at i0; rw [g1] at i1; rw [g1, g3] at i2; rw [g2] at i3
  obtain ⟨⟨s0, s1, s2, s3⟩, c0, c1, c2, c3⟩ := prop2_pair.1 h'
  simp only at s0 s1 s2 s3 c0 c1 c2 c3
  rw [pair_rivals _ _ (by decide)] at c0 c1 c2 c3
  simp only [Real.rpow_two, i0, i1, i2, i3] at c0 c1 c2 c3
  refine ⟨a' * k, b' * k * m, by positivity, by positivity, prop2_pair.2 ⟨⟨?_, ?_, ?_, ?_⟩, ?_, ?_, ?_, ?_⟩⟩
  · rw [s0, g0]; simp only [quadS]; ring
  · rw [s1, g1]; simp only [quadS]; ring
  · rw [s2, g2]; simp only [quadS]; ring
  · rw [s3, g3]; simp only [quadS]; ring
  · rw [c0]; simp only [quadC]
    rw [mul_assoc _ m, f0, show k * z0 * ((k * z0) ^ 2 / ((k * z0) ^ 2 + (k * z1 / 2 + k * z3) ^ 2)) =
      k * (k ^ 2 * z0 ^ 3) / (k ^ 2 * (z0 ^ 2 + (z1 / 2 + z3) ^ 2)) by ring, mul_div_assoc, mul_div_mul_left _ _ (by positivity)]
    ring
  · rw [c1]; simp only [quadC]
    rw [mul_assoc _ m, f1, show k * z1 / 2 * ((k * z1 / 2) ^ 2 / ((k * z2) ^ 2 + (k * z1 / 2) ^ 2)) =
      k * (k ^ 2 * (z1 / 2) ^ 3) / (k ^ 2 * (z2 ^ 2 + (z1 / 2) ^ 2)) by ring, mul_div_assoc, mul_div_mul_left _ _ (by positivity)]
    ring
  · rw [c2]; simp only [quadC]
    rw [mul_assoc _ m, f2, show (k * z1 / 2 + k * z3) * ((k * z1 / 2 + k * z3) ^ 2 / ((k * z0) ^ 2 + (k * z1 / 2 + k * z3) ^ 2)) =
      k * (k ^ 2 * (z1 / 2 + z3) ^ 3) / (k ^ 2 * (z0 ^ 2 + (z1 / 2 + z3) ^ 2)) by ring, mul_div_assoc, mul_div_mul_left _ _ (by positivity)]
    ring
  · rw [c3]; simp only [quadC]
    rw [mul_assoc _ m, f3, show k * z2 * ((k * z2) ^ 2 / ((k * z2) ^ 2 + (k * z1 / 2) ^ 2)) =
      k * (k ^ 2 * z2 ^ 3) / (k ^ 2 * (z2 ^ 2 + (z1 / 2) ^ 2)) by ring, mul_div_assoc, mul_div_mul_left _ _ (by positivity)]
    ring

/-- Without source 3, equal beliefs stay equal. -/
theorem pair_equal {p : Scores Nat Nat Nat} (hi : PosAll pairTriples p) {y : ℝ} (h : ∀ c ∈ allClaims pairTriples, p.2 c = y) :
    ∀ c ∈ allClaims pairTriples, (pooledStep pairTriples 2 p).2 c = 1 := by
  have eS : sources pairTriples = [0, 1, 2] := by decide
  have eC : allClaims pairTriples = {(1, 0), (0, 1), (1, 1), (0, 0)} := by decide
  have hy : 0 < y := by
    have := hi.2 (1, 0) (by decide)
    rwa [h (1, 0) (by decide)] at this
  have p0 := hi.1 0 (by decide)
  have p1 := hi.1 1 (by decide)
  have p2 := hi.1 2 (by decide)
  have inv : ∀ t : Nat → ℝ, invested pairTriples t (1, 0) = t 0 ∧ invested pairTriples t (0, 1) = t 1 / 2 ∧
      invested pairTriples t (1, 1) = t 1 / 2 ∧ invested pairTriples t (0, 0) = t 2 := by
    intro t
    have s1 : sourcesOf pairTriples (1, 0) = {0} := by decide
    have s2 : sourcesOf pairTriples (0, 1) = {1} := by decide
    have s3 : sourcesOf pairTriples (1, 1) = {1} := by decide
    have s4 : sourcesOf pairTriples (0, 0) = {2} := by decide
    have n0 : (claimsOf pairTriples 0).card = 1 := by decide
    have n1 : (claimsOf pairTriples 1).card = 2 := by decide
    have n2 : (claimsOf pairTriples 2).card = 1 := by decide
    simp [invested, s1, s2, s3, s4, Spec.nClaims, n0, n1, n2]
  obtain ⟨i1, i2, i3, i4⟩ := inv p.1
  have g0 : regained pairTriples p 0 = y := by
    have c0 : claimsOf pairTriples 0 = {(1, 0)} := by decide
    simp [regained, c0, Spec.nClaims, i1, p0.ne', h (1, 0) (by decide)]
  have g1 : regained pairTriples p 1 = 2 * y := by
    have c1 : claimsOf pairTriples 1 = {(0, 1), (1, 1)} := by decide
    have hh : p.1 1 / 2 ≠ 0 := by positivity
    simp only [regained, c1, Spec.nClaims, Finset.sum_pair (show ((0, 1) : Nat × Nat) ≠ (1, 1) by decide), i2, i3,
      Finset.card_pair (show ((0, 1) : Nat × Nat) ≠ (1, 1) by decide), Nat.cast_ofNat, div_self hh, mul_one,
      h (0, 1) (by decide), h (1, 1) (by decide)]
    ring
  have g2 : regained pairTriples p 2 = y := by
    have c2 : claimsOf pairTriples 2 = {(0, 0)} := by decide
    simp [regained, c2, Spec.nClaims, i4, p2.ne', h (0, 0) (by decide)]
  obtain ⟨j1, j2, j3, j4⟩ := inv (regained pairTriples p)
  rw [g0] at j1; rw [g1] at j2 j3; rw [g2] at j4
  have hall : ∀ c ∈ allClaims pairTriples, invested pairTriples (regained pairTriples p) c = y := by
    intro c hc
    rw [eC] at hc
    simp only [Finset.mem_insert, Finset.mem_singleton] at hc
    rcases hc with rfl | rfl | rfl | rfl
    · exact j1
    · rw [j2]; ring
    · rw [j3]; ring
    · exact j4
  have hcard : ∀ c ∈ allClaims pairTriples, (Spec.rivals pairTriples c).card = 2 := by decide
  have hval : ∀ c ∈ allClaims pairTriples, invested pairTriples (regained pairTriples p) c *
      (invested pairTriples (regained pairTriples p) c ^ (2 : ℝ) / ∑ d ∈ Spec.rivals pairTriples c,
        invested pairTriples (regained pairTriples p) d ^ (2 : ℝ)) = y / 2 := by
    intro c hc
    rw [Finset.sum_congr rfl fun d hd => by rw [hall d ((mem_allClaims _).2 ((mem_rivals pairTriples).1 hd).1)],
      hall c hc, Finset.sum_const, hcard c hc]
    simp only [Real.rpow_two, nsmul_eq_mul, Nat.cast_ofNat]
    field_simp
  intro c hc
  show _ / top _ _ = 1
  dsimp only
  rw [hval c hc]
  have : top (allClaims pairTriples) (fun c => invested pairTriples (regained pairTriples p) c *
      (invested pairTriples (regained pairTriples p) c ^ (2 : ℝ) / ∑ d ∈ Spec.rivals pairTriples c,
        invested pairTriples (regained pairTriples p) d ^ (2 : ℝ))) = y / 2 := by
    obtain ⟨m, hm, em⟩ := top_mem' (F := allClaims pairTriples) (f := fun c => invested pairTriples (regained pairTriples p) c *
      (invested pairTriples (regained pairTriples p) c ^ (2 : ℝ) / ∑ d ∈ Spec.rivals pairTriples c,
        invested pairTriples (regained pairTriples p) d ^ (2 : ℝ))) ⟨c, hc⟩
    rw [em, hval m hm]
  rw [this]
  exact div_self (by positivity)

/-- **C87.** PooledInvestment is different: a claim can lose belief, and its first place, by gaining a
supporter.  With exponent 2, fixed priors and three iterations, `(1, 1)` has belief 1 without
source 3, and less than `(0, 0)` when source 3 also claims it. -/
theorem C87_pooled {g : Option (Nat → Nat → Nat → Option ℝ)} {am am' : Bool} {d d' : Dataset Nat Nat Nat Ex}
    (hd : Dataset.mk' pairTriples am (finImp g) = .ok d) (hd' : Dataset.mk' pairTriples' am' (finImp g) = .ok d')
    {it it' : IterCfg Ex} {fuel fuel' : Nat} {clock clock' : Nat → Ex} {st st' : IterState Ex} {r r' : Result Nat Nat Nat Ex}
    (hr : AlgCfg.run ⟨.pooledInvestment (fin 2), it, some .fixed⟩ d fuel clock st = .ok r) (hi : r.iterations = some 3)
    (hr' : AlgCfg.run ⟨.pooledInvestment (fin 2), it', some .fixed⟩ d' fuel' clock' st' = .ok r') (hi' : r'.iterations = some 3) :
    BeliefIn r (1, 1) 1 ∧ ∃ b b' : ℝ, BeliefIn r' (1, 1) b ∧ BeliefIn r' (0, 0) b' ∧ b < b' ∧ b' ≤ 1 := by
  obtain rfl := mk'_ex hd
  obtain rfl := mk'_ex hd'
  have H := pooled_implements (l := pairTriples) (finImp g) (by simp) it .fixed 2
  have H' := pooled_implements (l := pairTriples') (finImp g) (by simp) it' .fixed 2
  obtain ⟨n, e, rep⟩ := H.run_reports (by simp) hr
  obtain ⟨n', e', rep'⟩ := H'.run_reports (by simp) hr'
  rw [hi] at e; cases e
  rw [hi'] at e'; cases e'
  constructor
  · rw [rep.beliefIn (show ((1, 1) : Nat × Nat) ∈ allClaims pairTriples by decide)]
    have hI := H.inv_iterate
    have h1 := pair_equal (hI 0) (y := 1 / 2) fun c _ => rfl
    have h2 := pair_equal (hI 1) h1
    exact (pair_equal (hI 2) h2 (1, 1) (by decide)).symm
  · have hI := H'.inv_iterate
    have k0 : ∃ a b, 0 < a ∧ 0 < b ∧ Prop2 pairTriples' a b ((fun _ => 1), priorOf pairTriples' .fixed)
        (quadS 1 1 1 1, quadC 1 1 1 1) :=
      ⟨1, 1 / 2, by norm_num, by norm_num, prop2_pair.2 (by simp [quadS, quadC, priorOf, priorFixed])⟩
    have k1 := pair_step (z0 := 3) (z1 := 4) (z2 := 3) (z3 := 2) (w0 := 351) (w1 := 200) (w2 := 832) (w3 := 675) (k := 1 / 3)
      (m := 1 / 325) (by norm_num) (by norm_num) (hI 0) k0 (by norm_num) (by norm_num) (by norm_num) (by norm_num)
      (by norm_num) (by norm_num) (by norm_num) (by norm_num) (by norm_num) (by norm_num)
    have k2 := pair_step (z0 := 351) (z1 := 616) (z2 := 675) (z3 := 416) (w0 := 351 ^ 3 / 647377) (w1 := 308 ^ 3 / 550489)
      (w2 := 724 ^ 3 / 647377) (w3 := 675 ^ 3 / 550489) (k := 1)
      (m := 1) (by norm_num) (by norm_num) (hI 1) k1 (by norm_num) (by norm_num) (by norm_num) (by norm_num)
      (by norm_num) (by norm_num) (by norm_num) (by norm_num) (by norm_num) (by norm_num)
    obtain ⟨a, b, ha, hb, k3⟩ := pair_step (k := 1) (m := 1) (by norm_num) (by norm_num) (hI 2) k2 one_pos one_pos
      (one_mul _) (one_mul _) (one_mul _) (one_mul _) (one_mul _) (one_mul _) (one_mul _) (one_mul _)
    obtain ⟨-, -, -, c2, c3⟩ := prop2_pair.1 k3
    refine ⟨_, _, (rep'.beliefIn (by decide)).2 rfl, (rep'.beliefIn (by decide)).2 rfl, ?_, ?_⟩
    · refine lt_of_eq_of_lt c2 (lt_of_lt_of_eq (mul_lt_mul_of_pos_left ?_ hb) c3.symm)
      simp only [quadC]
      norm_num
    · exact scaled_le_one (by decide) (topC_pos (by simp) fun c hc => pooledB_pos (hI 2) 2 hc)

/-! ### Examples -/

/-- The hypotheses are met: here source 3 joins the triples above. -/
example (clock : Nat → Ex) : ∃ (d d' : Dataset Nat Nat Nat Ex) (r r' : Result Nat Nat Nat Ex),
    Dataset.mk' pairTriples false none = .ok d ∧ Dataset.mk' pairTriples' false none = .ok d' ∧
    AlgCfg.run ⟨.truthFinder (fin 0.5) (fin 0.3) (fin 0.9), .fixed 20, none⟩ d 100 clock {} = .ok r ∧
    AlgCfg.run ⟨.truthFinder (fin 0.5) (fin 0.3) (fin 0.9), .fixed 20, none⟩ d' 100 clock {} = .ok r' ∧
    ∃ b b' : ℝ, BeliefIn r (1, 1) b ∧ BeliefIn r' (1, 1) b' ∧ b < b' := by
  have hN : NoContradiction (V := Nat) (X := Nat) none := nofun
  obtain ⟨d, hd⟩ := exists_dataset pairTriples (by decide)
  obtain ⟨d', hd'⟩ := exists_dataset pairTriples' (by decide)
  have e := mk'_ex hd
  have e' := mk'_ex hd'
  subst e e'
  obtain ⟨r, h1, h2, -⟩ := (tf_implements (l := pairTriples) none (.fixed 20) none 0.5 0.3 0.9 (by norm_num) (by norm_num)).run_fixed
    nofun (by simp) (N := 20) rfl (fuel := 100) (by norm_num) clock {}
  obtain ⟨r', h1', h2', -⟩ := (tf_implements (l := pairTriples') none (.fixed 20) none 0.5 0.3 0.9 (by norm_num) (by norm_num)).run_fixed
    nofun (by simp) (N := 20) rfl (fuel := 100) (by norm_num) clock {}
  obtain ⟨b, b', hb, hb', -, hlt⟩ := (C87_truthfinder pair_backed (f := none) hd hd' hN (by norm_num) (by norm_num) (by norm_num)
    (by norm_num) h1 h1' (h2.trans h2'.symm)).2 (1, 1) (by decide)
  exact ⟨_, _, r, r', hd, hd', h1, h1', b, b', hb, hb', hlt rfl (by norm_num) (by norm_num) (by rw [h2]; decide)⟩

/-- The two runs of `C87_pooled`. -/
example (clock : Nat → Ex) : ∃ (d d' : Dataset Nat Nat Nat Ex) (r r' : Result Nat Nat Nat Ex),
    Dataset.mk' pairTriples false none = .ok d ∧ Dataset.mk' pairTriples' false none = .ok d' ∧
    AlgCfg.run ⟨.pooledInvestment (fin 2), .fixed 3, some .fixed⟩ d 100 clock {} = .ok r ∧
    AlgCfg.run ⟨.pooledInvestment (fin 2), .fixed 3, some .fixed⟩ d' 100 clock {} = .ok r' ∧
    BeliefIn r (1, 1) 1 ∧ ∃ b < (1 : ℝ), BeliefIn r' (1, 1) b := by
  obtain ⟨d, hd⟩ := exists_dataset pairTriples (by decide)
  obtain ⟨d', hd'⟩ := exists_dataset pairTriples' (by decide)
  have e := mk'_ex hd
  have e' := mk'_ex hd'
  subst e e'
  obtain ⟨r, h1, h2, -⟩ := (pooled_implements (l := pairTriples) none (by simp) (.fixed 3) .fixed 2).run_fixed
    nofun (by simp) (N := 3) rfl (fuel := 100) (by norm_num) clock {}
  obtain ⟨r', h1', h2', -⟩ := (pooled_implements (l := pairTriples') none (by simp) (.fixed 3) .fixed 2).run_fixed
    nofun (by simp) (N := 3) rfl (fuel := 100) (by norm_num) clock {}
  obtain ⟨k1, b, b', k2, k3, k4, k5⟩ := C87_pooled (g := none) hd hd' h1 h2 h1' h2'
  exact ⟨_, _, r, r', hd, hd', h1, h1', k1, b, k4.trans_le k5, k2⟩

/-- Source 1 makes two claims, as `C87_avlog` requires. -/
example : ∃ s, 2 ≤ (claimsOf pairTriples s).card := ⟨1, by decide⟩

end TD
