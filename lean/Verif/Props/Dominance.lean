import Verif.Props.Order
import Verif.Spec.Dominance
import Verif.Props.Unbounded
/-!
# C42: more support, more belief
-/

namespace TD
open Spec Ex
attribute [-instance] instBEqProd

variable {S V X : Type} [DecidableEq S] [DecidableEq V] [DecidableEq X] {l : List (S × V × X)}

/-- Label-level dominance. -/
def Dom (l : List (S × V × X)) (b : V × X → ℝ) : Prop :=
  ∀ c c', c ∈ claims l → Supports l c c' → b c ≤ b c'

theorem Spec.Supports.subset {c c' : V × X} (h : Supports l c c') : sourcesOf l c ⊆ sourcesOf l c' := by
  intro s hs
  rw [mem_sourcesOf l] at hs ⊢
  exact h s hs

theorem Spec.Supports.mem {c c' : V × X} (h : Supports l c c') (hc : c ∈ claims l) : c' ∈ claims l := by
  obtain ⟨s, hs⟩ := sourcesOf_nonempty l hc
  have := (mem_sourcesOf l).1 (Spec.Supports.subset h hs)
  exact mem_claims_of_claimsOf l ((mem_claimsOf l).2 this)

theorem sources_of_sourcesOf {c : V × X} {s : S} (h : s ∈ sourcesOf l c) : s ∈ sources l := by
  rw [mem_sourcesOf l] at h
  rw [← mem_allSources, allSources, List.mem_toFinset]
  exact List.mem_map.2 ⟨_, h, rfl⟩

theorem dom_sum {t : S → ℝ} (ht : ∀ s ∈ sources l, 0 ≤ t s) : Dom l fun c => ∑ s ∈ sourcesOf l c, t s := by
  intro c c' _ h
  exact Finset.sum_le_sum_of_subset_of_nonneg (Spec.Supports.subset h)
    fun s hs _ => ht s (sources_of_sourcesOf hs)

theorem Dom.mono {b : V × X → ℝ} (h : Dom l b) {g : ℝ → ℝ} (hb : ∀ c ∈ claims l, 0 ≤ b c)
    (hg : ∀ x y, 0 ≤ x → x ≤ y → g x ≤ g y) : Dom l fun c => g (b c) :=
  fun c c' hc hs => hg _ _ (hb c hc) (h c c' hc hs)

theorem sum_sourcesOf_nonneg {t : S → ℝ} (ht : ∀ s ∈ sources l, 0 ≤ t s) (c : V × X) :
    0 ≤ ∑ s ∈ sourcesOf l c, t s :=
  Finset.sum_nonneg fun s hs => ht s (sources_of_sourcesOf hs)

theorem Dom.scaled {b : V × X → ℝ} (h : Dom l b) (hb : ∀ c ∈ claims l, 0 ≤ b c) :
    Dom l (scaled (allClaims l) b) := by
  intro c c' hc hs
  exact div_le_div_of_nonneg_right (h c c' hc hs) ((hb c hc).trans (le_top ((mem_allClaims l).2 hc)))

theorem sound_dom (hl : l ≠ []) {f : Option (V → X → X → Option ℝ)} {c : AlgCfg Ex} (hc : Sound l c)
    (hs : Supportive f c.kind) (hk : c.kind ≠ .unboundedSums) : ∃ init step cmp Inv, Implements c l (finImp f) init step cmp Inv ∧
      ∀ p, Inv p → Dom l (step p).2 := by
  obtain ⟨k, it, pr⟩ := c
  have hp : ∀ {pr : Option Prior}, pr ≠ none → ∃ p, pr = some p :=
    fun h => Option.ne_none_iff_exists'.1 h
  have hsum : ∀ {b : V × X → ℝ}, (∀ c ∈ claims l, 0 ≤ b c) → ∀ s ∈ sources l, 0 ≤ sumTrust l b s :=
    fun hb s _ => Finset.sum_nonneg fun c hc => hb c (mem_claims_of_claimsOf l hc)
  cases k with
  | sums =>
    obtain ⟨p, rfl⟩ := hp hc
    refine ⟨_, _, _, _, sums_implements _ hl it p, fun q hq => ?_⟩
    have ht := hsum fun c hc => (hq c hc).le
    exact (dom_sum ht).scaled fun c _ => sum_sourcesOf_nonneg ht c
  | averageLog =>
    obtain ⟨p, rfl⟩ := hp hc.1
    refine ⟨_, _, _, _, avlog_implements _ it p hc.2, fun q hq => ?_⟩
    have ht : ∀ s ∈ sources l, 0 ≤ Real.log (nClaims l s) / nClaims l s * sumTrust l q.2 s := fun s hs =>
      mul_nonneg (div_nonneg (Real.log_natCast_nonneg _) (Nat.cast_nonneg _)) (hsum hq.1 s hs)
    exact (dom_sum ht).scaled fun c _ => sum_sourcesOf_nonneg ht c
  | investment g =>
    obtain ⟨h1, y, rfl⟩ := hc
    obtain ⟨p, rfl⟩ := hp h1
    obtain ⟨y', hy, h0⟩ := hs
    rw [fin_inj] at hy
    subst hy
    refine ⟨_, _, _, _, invest_implements _ hl it p y, fun q hq => ?_⟩
    have ht : ∀ s ∈ sources l, 0 ≤ regained l q s / nClaims l s := fun s hs =>
      div_nonneg (regained_pos hq hs).le (Nat.cast_nonneg _)
    refine ((dom_sum ht).mono (fun c _ => sum_sourcesOf_nonneg ht c)
      fun a b ha hab => Real.rpow_le_rpow ha hab h0).scaled fun c _ => ?_
    exact Real.rpow_nonneg (sum_sourcesOf_nonneg ht c) _
  | pooledInvestment g => exact hs.elim
  | truthFinder rho gamma t =>
    obtain ⟨a, b, y, rfl, rfl, rfl, h0, h1⟩ := hc
    obtain ⟨rfl, y', hy, h2⟩ := hs
    rw [fin_inj] at hy
    subst hy
    refine ⟨_, _, _, _, tf_implements none it pr a b y h0 h1, fun q hq => ?_⟩
    have ht : ∀ s ∈ sources l, 0 ≤ -Real.log (1 - q.1 s) := fun s hs => by
      have := hq s hs
      rw [neg_nonneg]
      exact Real.log_nonpos (by linarith) (by linarith)
    intro c c' hc hs
    have hle := dom_sum ht c c' hc hs
    simp only [tfStep, impVal, zero_mul, Finset.sum_const_zero, mul_zero, add_zero]
    apply one_div_le_one_div_of_le (by positivity)
    have : -b * ∑ s ∈ sourcesOf l c', -Real.log (1 - q.1 s) ≤ -b * ∑ s ∈ sourcesOf l c, -Real.log (1 - q.1 s) :=
      mul_le_mul_of_nonpos_left hle (by linarith)
    linarith [Real.exp_le_exp.2 this]
  | crh eps =>
    obtain ⟨y, rfl, h0⟩ := hc
    refine ⟨_, _, _, _, crh_implements hl _ it pr y h0, fun q _ => ?_⟩
    intro c c' hc hs
    have ht : ∀ s ∈ sources l, 0 ≤ (crhStep l y q).1 s := fun s hs => h0.le.trans (crhT_ge' hl h0 q hs)
    exact div_le_div_of_nonneg_right (dom_sum ht c c' hc hs) (crhT_sum_pos hl h0 q).le
  | unboundedSums => exact absurd rfl hk

theorem rank_le_rank {A : Type} {F : Finset A} {g : A → ℝ} {a b : A} (h : g a ≤ g b) : rank F g a ≤ rank F g b := by
  unfold rank
  refine Finset.card_le_card fun y hy => ?_
  rw [Finset.mem_filter] at hy ⊢
  exact ⟨hy.1, hy.2.trans_le h⟩

theorem usums_dom (p : Prior) (k : Nat) : Dom l (usums l (priorOf l p) (k + 1)).2 := by
  have h := usums_nonneg (l := l) p k
  have e : (usums l (priorOf l p) (k + 1)).2 =
      fun c => ∑ s ∈ sourcesOf l c, sumTrust l (usums l (priorOf l p) k).2 s := by
    unfold usums
    rw [Function.iterate_succ_apply']
    rfl
  rw [e]
  refine dom_sum fun s _ => Finset.sum_nonneg fun c hc => ?_
  exact h.2 c ((mem_allClaims l).2 (mem_claims_of_claimsOf l hc))

theorem dominance_of_reports {r : Result S V X Ex} {p : Scores S V X} (hr : Reports l r p) (hd : Dom l p.2) :
    Dominance l r := by
  intro v x v' x' hc hs
  have hc' := (mem_allClaims l).2 (Spec.Supports.mem hs ((mem_allClaims l).1 hc))
  exact ⟨_, _, by rw [hr.2, if_pos hc], by rw [hr.2, if_pos hc'], hd _ _ ((mem_allClaims l).1 hc) hs⟩

/-- **C42.** After at least one iteration, a claim whose sources include those of another
claim has at least as much belief. -/
theorem C42_run (hl : l ≠ []) {am : Bool} {f : Option (V → X → X → Option ℝ)} {d : Dataset S V X Ex}
    (hd : Dataset.mk' l am (finImp f) = .ok d) {c : AlgCfg Ex} (hc : Sound l c) (hs : Supportive f c.kind)
    {fuel : Nat} {clock : Nat → Ex} {st : IterState Ex} {r : Result S V X Ex}
    (h : c.run d fuel clock st = .ok r) {k : Nat} (hk : r.iterations = some k) (hk1 : 1 ≤ k) :
    Dominance l r := by
  obtain ⟨j, rfl⟩ : ∃ j, k = j + 1 := ⟨k - 1, by omega⟩
  by_cases hu : c.kind = .unboundedSums
  · obtain ⟨kd, it, pr⟩ := c
    subst hu
    obtain ⟨h1, th, rfl⟩ := hc
    obtain ⟨p, rfl⟩ := Option.ne_none_iff_exists'.1 h1
    obtain ⟨k, e, hr, -⟩ := C37_unbounded_sums l am (finImp f) d hd hl th p fuel clock st r h
    rw [hk] at e
    cases e
    refine dominance_of_reports hr fun c c' hc hs => ?_
    exact Nat.cast_le.2 (rank_le_rank (usums_dom p j c c' hc hs))
  · obtain rfl := mk'_ex hd
    obtain ⟨init, step, cmp, Inv, H, hdom⟩ := sound_dom hl hc hs hu
    obtain ⟨k, e, hr⟩ := H.run_reports hu h
    rw [hk] at e
    cases e
    refine dominance_of_reports hr ?_
    rw [Function.iterate_succ_apply']
    exact hdom _ (H.inv_iterate j)

/-- **C42.** The same holds for the partial results of `run_iter` (the first of which is the
initial state, except for CRH). -/
theorem C42_run_iter (hl : l ≠ []) {am : Bool} {f : Option (V → X → X → Option ℝ)} {d : Dataset S V X Ex}
    (hd : Dataset.mk' l am (finImp f) = .ok d) {c : AlgCfg Ex} (hc : Sound l c) (hs : Supportive f c.kind)
    {fuel : Nat} {clock : Nat → Ex} {st : IterState Ex} {rs : List (Result S V X Ex)}
    (h : c.runIter d fuel clock st = .ok rs) {i : Nat} {r : Result S V X Ex} (hi : rs[i]? = some r)
    (hi1 : 1 ≤ i ∨ ∃ eps, c.kind = .crh eps) : Dominance l r := by
  by_cases hu : c.kind = .unboundedSums
  · obtain ⟨kd, it, pr⟩ := c
    subst hu
    obtain ⟨h1, th, rfl⟩ := hc
    obtain ⟨p, rfl⟩ := Option.ne_none_iff_exists'.1 h1
    obtain ⟨j, rfl⟩ : ∃ j, i = j + 1 := by
      rcases hi1 with hi1 | ⟨_, h⟩
      · exact ⟨i - 1, by omega⟩
      · cases h
    obtain ⟨a, b, ha, hb, hr⟩ := C37_partial_results l am (finImp f) d hd hl (.ord th) p fuel clock st rs h (j + 1) r hi
    refine dominance_of_reports hr fun c c' hc hs => ?_
    exact mul_le_mul_of_nonneg_left (usums_dom p j c c' hc hs) hb.le
  · obtain rfl := mk'_ex hd
    obtain ⟨init, step, cmp, Inv, H, hdom⟩ := sound_dom hl hc hs hu
    have hr := H.run_iter_reports h i r hi
    obtain ⟨j, hj⟩ : ∃ j, (if c.kind.logsInit then i else i + 1) = j + 1 := by
      rcases hi1 with hi1 | ⟨eps, h⟩
      · split
        · exact ⟨i - 1, by omega⟩
        · exact ⟨i, rfl⟩
      · rw [h]; exact ⟨i, rfl⟩
    rw [hj, Function.iterate_succ_apply'] at hr
    exact dominance_of_reports hr (hdom _ (H.inv_iterate j))

/-- **C42** for majority voting. -/
theorem C42_voting (am : Bool) (f : Option (V → X → X → Option Ex)) (d : Dataset S V X Ex)
    (h : Dataset.mk' l am f = .ok d) (hl : l ≠ []) (clock : Nat → Ex) :
    ∃ r, votingRun d clock = .ok r ∧ Dominance l r := by
  obtain ⟨r, h1, h2, -⟩ := C29_voting l am f d h hl clock
  refine ⟨r, h1, dominance_of_reports h2 ?_⟩
  refine Dom.scaled (fun c c' _ hs => ?_) fun c _ => Nat.cast_nonneg _
  exact Nat.cast_le.2 (Finset.card_le_card (Spec.Supports.subset hs))

/-- **C42.** In particular a claim made by all sources has the largest belief of all claims. -/
theorem C42_unanimous {r : Result S V X Ex} (h : Dominance l r) {v : V} {x : X}
    (hall : ∀ s ∈ allSources l, (s, v, x) ∈ recorded l) {v' : V} {x' : X} (hc : (v', x') ∈ allClaims l) :
    ∃ b b' : ℝ, (r.belief.get? v').bind (fun d => d.get? x') = some (Ex.fin b) ∧
      (r.belief.get? v).bind (fun d => d.get? x) = some (Ex.fin b') ∧ b ≤ b' := by
  refine h v' x' v x hc fun s hs => hall s ?_
  rw [allSources, List.mem_toFinset]
  exact List.mem_map.2 ⟨_, hs, rfl⟩

/-- **C42.** PooledInvestment is different: of two claims with the same sources, the one
without rivals gets strictly more belief than one with a rival. -/
theorem C42_pooled (hl : l ≠ []) {am : Bool} {f : Option (V → X → X → Option ℝ)} {d : Dataset S V X Ex}
    (hd : Dataset.mk' l am (finImp f) = .ok d) {g : ℝ} {it : IterCfg Ex} {p : Prior}
    {fuel : Nat} {clock : Nat → Ex} {st : IterState Ex} {r : Result S V X Ex}
    (h : (⟨.pooledInvestment (fin g), it, some p⟩ : AlgCfg Ex).run d fuel clock st = .ok r)
    {k : Nat} (hk : r.iterations = some k) (hk1 : 1 ≤ k) {v v' : V} {x x' y : X}
    (hc : (v, x) ∈ allClaims l) (hs : ∀ s, (s, v, x) ∈ recorded l ↔ (s, v', x') ∈ recorded l)
    (halone : ∀ z, (v, z) ∈ allClaims l → z = x) (hriv : (v', y) ∈ allClaims l) (hy : y ≠ x') :
    ∃ b b' : ℝ, (r.belief.get? v).bind (fun d => d.get? x) = some (Ex.fin b) ∧
      (r.belief.get? v').bind (fun d => d.get? x') = some (Ex.fin b') ∧ b' < b := by
  obtain ⟨j, rfl⟩ : ∃ j, k = j + 1 := ⟨k - 1, by omega⟩
  obtain rfl := mk'_ex hd
  have H := pooled_implements (finImp f) hl it p g
  obtain ⟨k, e, hr⟩ := H.run_reports nofun h
  rw [hk] at e
  cases e
  have hc' : (v', x') ∈ allClaims l :=
    (mem_allClaims l).2 (Spec.Supports.mem (fun s hs' => (hs s).1 hs') ((mem_allClaims l).1 hc))
  refine ⟨_, _, by rw [hr.2, if_pos hc], by rw [hr.2, if_pos hc'], ?_⟩
  rw [Function.iterate_succ_apply']
  have hq := H.inv_iterate j
  set q := (pooledStep l g)^[j] ((fun _ => 1), priorOf l p)
  have hpos : ∀ c ∈ allClaims l, 0 < invested l (regained l q) c := fun c hc =>
    invested_pos (fun s hs => regained_pos hq hs) ((mem_allClaims l).1 hc)
  have hsame : invested l (regained l q) (v', x') = invested l (regained l q) (v, x) := by
    have : sourcesOf l (v', x') = sourcesOf l (v, x) := by
      ext s
      rw [mem_sourcesOf l, mem_sourcesOf l, hs]
    simp only [invested, this]
  have hr1 : rivals l (v, x) = {(v, x)} := by
    ext c
    rw [mem_rivals, ← mem_allClaims, Finset.mem_singleton]
    constructor
    · rintro ⟨h1, h2⟩
      obtain ⟨a, b⟩ := c
      cases h2
      rw [halone b h1]
    · rintro rfl; exact ⟨hc, rfl⟩
  have hlt : invested l (regained l q) (v', x') ^ g < ∑ d ∈ rivals l (v', x'), invested l (regained l q) d ^ g := by
    have hsub : ({(v', x'), (v', y)} : Finset (V × X)) ⊆ rivals l (v', x') := by
      intro c hc
      rw [Finset.mem_insert, Finset.mem_singleton] at hc
      rw [mem_rivals, ← mem_allClaims]
      rcases hc with rfl | rfl
      · exact ⟨hc', rfl⟩
      · exact ⟨hriv, rfl⟩
    refine lt_of_lt_of_le ?_ (Finset.sum_le_sum_of_subset_of_nonneg hsub fun c hc _ =>
      (Real.rpow_pos_of_pos (hpos c ((mem_allClaims l).2 ((mem_rivals l).1 hc).1)) g).le)
    rw [Finset.sum_pair (by simpa using Ne.symm hy)]
    have := Real.rpow_pos_of_pos (hpos _ hriv) g
    linarith
  have hH := hpos _ hc
  have hHg := Real.rpow_pos_of_pos hH g
  have hpb : ∀ c ∈ allClaims l, 0 < invested l (regained l q) c * (invested l (regained l q) c ^ g /
      ∑ d ∈ rivals l c, invested l (regained l q) d ^ g) := by
    intro c hc
    refine mul_pos (hpos c hc) (div_pos (Real.rpow_pos_of_pos (hpos c hc) g) (Finset.sum_pos
      (fun d hd => Real.rpow_pos_of_pos (hpos d ((mem_allClaims l).2 ((mem_rivals l).1 hd).1)) g)
      ⟨c, (mem_rivals l).2 ⟨(mem_allClaims l).1 hc, rfl⟩⟩))
  show scaled (allClaims l) _ _ < scaled (allClaims l) _ _
  unfold scaled
  refine div_lt_div_of_pos_right ?_ (top_pos hc (hpb _ hc))
  simp only [hsame, hr1, Finset.sum_singleton]
  refine mul_lt_mul_of_pos_left ?_ hH
  rw [div_self hHg.ne', div_lt_one]
  · rw [← hsame]; exact hlt
  · rw [← hsame] at hHg; exact hHg.trans hlt

/-- Source 1 makes the claim of source 2 and another one. -/
def demoTriples' : List (Nat × Nat × Nat) := [(1, 0, 5), (1, 1, 6), (2, 1, 6)]

/-- **C42.** With Sums and UnboundedSums a source that makes all the claims of another
source has at least as much trust (the other algorithms average over the claims). -/
theorem C42_sources (hl : l ≠ []) {am : Bool} {f : Option (V → X → X → Option ℝ)} {d : Dataset S V X Ex}
    (hd : Dataset.mk' l am (finImp f) = .ok d) {c : AlgCfg Ex} (hc : Sound l c)
    (hs : c.kind = .sums ∨ c.kind = .unboundedSums)
    {fuel : Nat} {clock : Nat → Ex} {st : IterState Ex} {r : Result S V X Ex}
    (h : c.run d fuel clock st = .ok r) {k : Nat} (hk : r.iterations = some k) (hk1 : 1 ≤ k)
    {s s' : S} (hsrc : s ∈ allSources l) (hsub : ∀ x, (s, x) ∈ recorded l → (s', x) ∈ recorded l) :
    ∃ t t' : ℝ, r.trust.get? s = some (fin t) ∧ r.trust.get? s' = some (fin t') ∧ t ≤ t' := by
  obtain ⟨j, rfl⟩ : ∃ j, k = j + 1 := ⟨k - 1, by omega⟩
  obtain ⟨c0, hc0⟩ := claimsOf_nonempty l ((mem_allSources l).1 hsrc)
  have hsrc' : s' ∈ allSources l := (mem_allSources l).2
    (mem_sources_of_sourcesOf l ((mem_sourcesOf l).2 (hsub _ ((mem_claimsOf l).1 hc0))))
  have hle : ∀ b : V × X → ℝ, (∀ c ∈ claims l, 0 ≤ b c) → sumTrust l b s ≤ sumTrust l b s' := by
    intro b hb
    refine Finset.sum_le_sum_of_subset_of_nonneg (fun x hx => ?_)
      fun x hx _ => hb x (mem_claims_of_claimsOf l hx)
    rw [mem_claimsOf l] at hx ⊢
    exact hsub x hx
  obtain ⟨kd, it, pr⟩ := c
  rcases hs with hs | hs
  · simp only at hs
    subst hs
    obtain rfl := mk'_ex hd
    obtain ⟨p, rfl⟩ := Option.ne_none_iff_exists'.1 hc
    have H := sums_implements (finImp f) hl it p
    obtain ⟨k, e, hr⟩ := H.run_reports nofun h
    rw [hk] at e
    cases e
    refine ⟨_, _, by rw [hr.1, if_pos hsrc], by rw [hr.1, if_pos hsrc'], ?_⟩
    rw [Function.iterate_succ_apply']
    have hq := H.inv_iterate j
    refine div_le_div_of_nonneg_right (hle _ fun c hc => (hq c hc).le) ?_
    exact (topS_pos hl fun s hs => sumTrust_pos hq hs).le
  · simp only at hs
    subst hs
    obtain ⟨h1, th, rfl⟩ := hc
    obtain ⟨p, rfl⟩ := Option.ne_none_iff_exists'.1 h1
    obtain ⟨k, e, hr, -⟩ := C37_unbounded_sums l am (finImp f) d hd hl th p fuel clock st r h
    rw [hk] at e
    cases e
    refine ⟨_, _, by rw [hr.1, if_pos hsrc], by rw [hr.1, if_pos hsrc'], ?_⟩
    refine Nat.cast_le.2 (rank_le_rank ?_)
    have hn := usums_nonneg (l := l) p j
    unfold usums
    rw [Function.iterate_succ_apply']
    exact hle _ fun c hc => hn.2 c ((mem_allClaims l).2 hc)

/-! ### Examples -/

/-- Source 1 of the example makes more claims than source 2. -/
example : 2 ∈ allSources demoTriples' ∧ ∀ x, (2, x) ∈ recorded demoTriples' → (1, x) ∈ recorded demoTriples' := by
  constructor
  · decide
  · rintro ⟨a, b⟩ h
    simp_all [recorded, firstsBy, demoTriples']


/-- Claim (1, 5) of source 1 has the same sources as claim (0, 2). -/
example : Supports demoTriples (0, 2) (1, 5) ∧ Supports demoTriples (1, 5) (0, 2) := by
  constructor <;> (intro s hs; simp_all [recorded, firstsBy])

example (clock : Nat → Ex) : ∃ r, (⟨.averageLog, .fixed 20, some .voted⟩ : AlgCfg Ex).run
    (datasetOf demoTriples (finImp none)) 100 clock = .ok r ∧ Dominance demoTriples r := by
  have hc : Sound demoTriples ⟨.averageLog, .fixed 20, some .voted⟩ := ⟨by simp, 1, by decide⟩
  obtain ⟨r, h1, h2, -⟩ := (avlog_implements (l := demoTriples) (finImp none) (.fixed 20) .voted hc.2).run_fixed nofun
    (by simp) (N := 20) rfl (fuel := 100) (by norm_num) clock {}
  exact ⟨r, h1, C42_run (by simp) demo_dataset hc trivial h1 h2 (by norm_num)⟩

/-- PooledInvestment violates `Dominance` on the example. -/
example (clock : Nat → Ex) : ∃ r, (⟨.pooledInvestment (fin 1.4), .fixed 10, some .voted⟩ : AlgCfg Ex).run
    (datasetOf demoTriples (finImp none)) 100 clock = .ok r ∧ ¬ Dominance demoTriples r := by
  obtain ⟨r, h1, h2, -⟩ := (pooled_implements (l := demoTriples) (finImp none) (by simp) (.fixed 10) .voted 1.4).run_fixed
    nofun (by simp) (N := 10) rfl (fuel := 100) (by norm_num) clock {}
  refine ⟨r, h1, fun hd => ?_⟩
  have hsup : ∀ s, (s, 1, 5) ∈ recorded demoTriples ↔ (s, 0, 2) ∈ recorded demoTriples := by
    intro s; simp [recorded, firstsBy]
  obtain ⟨b, b', e1, e2, hlt⟩ := C42_pooled (l := demoTriples) (by simp) demo_dataset h1 h2 (by norm_num) (v := 1) (x := 5)
    (v' := 0) (x' := 2) (y := 1) (by decide) hsup (by intro z; simp [allClaims, recorded, firstsBy]) (by decide)
    (by decide)
  obtain ⟨c, c', f1, f2, hle⟩ := hd 1 5 0 2 (by decide) fun s hs => (hsup s).1 hs
  rw [e1] at f1
  rw [e2] at f2
  simp only [Option.some.injEq, fin_inj] at f1 f2
  linarith

end TD
