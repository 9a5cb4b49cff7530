import Verif.Lemmas.Refine
import Mathlib.Algebra.Order.BigOperators.Group.Finset

/-! Each algorithm implements its label-level iteration. -/

namespace TD
open Spec Ex
attribute [-instance] instBEqProd

section top
variable {A : Type} {F : Finset A} {f : A → ℝ}

theorem le_top {a : A} (h : a ∈ F) : f a ≤ top F f := by
  unfold top
  rw [dif_pos ⟨a, h⟩]
  exact Finset.le_sup' f h

theorem top_mem (h : F.Nonempty) : ∃ a ∈ F, f a = top F f := by
  unfold top
  rw [dif_pos h]
  obtain ⟨a, ha, e⟩ := Finset.exists_mem_eq_sup' h f
  exact ⟨a, ha, e.symm⟩

theorem top_pos {a : A} (h : a ∈ F) (ha : 0 < f a) : 0 < top F f := lt_of_lt_of_le ha (le_top h)

theorem scaled_pos {a : A} (h : a ∈ F) (ha : 0 < f a) : 0 < scaled F f a :=
  div_pos ha (top_pos h ha)

theorem scaled_nonneg {a : A} (h : a ∈ F) (ha : 0 ≤ f a) : 0 ≤ scaled F f a :=
  div_nonneg ha (ha.trans (le_top h))

theorem scaled_le_one {a : A} (h : a ∈ F) (hf : 0 < top F f) : scaled F f a ≤ 1 := by
  unfold scaled
  rw [div_le_one hf]
  exact le_top h

theorem scaled_max (hne : F.Nonempty) (hf : 0 < top F f) : ∃ a ∈ F, scaled F f a = 1 := by
  obtain ⟨a, ha, e⟩ := top_mem (f := f) hne
  exact ⟨a, ha, by unfold scaled; rw [e, div_self hf.ne']⟩

end top

variable {S V X : Type} [DecidableEq S] [DecidableEq V] [DecidableEq X]
variable {l : List (S × V × X)} (f : Option (V → X → X → Option Ex))

theorem normalise_repS (hl : l ≠ []) {t : S → ℝ} (h : top (allSources l) t ≠ 0) :
    normalise (repS l t) = .ok (repS l (scaled (allSources l) t)) := by
  have := Ex.normalise_eq (sources_ne hl) t (by rwa [sources_toFinset])
  rwa [sources_toFinset] at this

theorem normalise_repC (hl : l ≠ []) {b : V × X → ℝ} (h : top (allClaims l) b ≠ 0) :
    normalise (repC l b) = .ok (repC l (scaled (allClaims l) b)) := by
  have := Ex.normalise_eq (claims_ne hl) b (by rwa [claims_toFinset])
  rwa [claims_toFinset] at this

theorem sc_repC (b : V × X → ℝ) : (matsOf l f).sc.mulVec (repC l b) = repS l (sumTrust l b) :=
  sc_mulVec l f b
theorem scT_repS (t : S → ℝ) : (matsOf l f).sc.T.mulVec (repS l t) = repC l (sumBelief l t) :=
  scT_mulVec l f t
theorem claimCounts_rep : claimCounts (matsOf l f) = repS l (nClaims l) := claimCounts_ex l f
theorem sourceCounts_rep : sourceCounts (matsOf l f) = repC l (nSources l) := sourceCounts_ex l f
theorem mutEx_repC (b : V × X → ℝ) : (matsOf l f).mutEx.mulVec (repC l b) =
    repC l (fun c => ∑ d ∈ rivals l c, b d) := mutEx_mulVec l f b

theorem vzipS {g : Ex → Ex → Ex} {t u w : S → ℝ} (h : ∀ s ∈ sources l, g (fin (t s)) (fin (u s)) = fin (w s)) :
    vzip g (repS l t) (repS l u) = repS l w := by
  unfold repS
  rw [vzip_map]
  exact List.map_congr_left h

theorem vzipC {g : Ex → Ex → Ex} {t u w : V × X → ℝ}
    (h : ∀ s ∈ claims l, g (fin (t s)) (fin (u s)) = fin (w s)) :
    vzip g (repC l t) (repC l u) = repC l w := by
  unfold repC
  rw [vzip_map]
  exact List.map_congr_left h

theorem mapS {g : Ex → Ex} {t w : S → ℝ} (h : ∀ s ∈ sources l, g (fin (t s)) = fin (w s)) :
    (repS l t).map g = repS l w := by
  unfold repS
  rw [List.map_map]
  exact List.map_congr_left h

theorem mapC {g : Ex → Ex} {t w : V × X → ℝ} (h : ∀ s ∈ claims l, g (fin (t s)) = fin (w s)) :
    (repC l t).map g = repC l w := by
  unfold repC
  rw [List.map_map]
  exact List.map_congr_left h

theorem repS_congr {t u : S → ℝ} (h : ∀ s ∈ sources l, t s = u s) : repS l t = repS l u :=
  List.map_congr_left fun s hs => by rw [h s hs]
theorem repC_congr {t u : V × X → ℝ} (h : ∀ s ∈ claims l, t s = u s) : repC l t = repC l u :=
  List.map_congr_left fun s hs => by rw [h s hs]

/-! ### Priors -/

theorem rivals_sum_pos {c : V × X} (hc : c ∈ claims l) : 0 < ∑ d ∈ rivals l c, nSources l d :=
  Finset.sum_pos (fun d hd => nSources_pos l ((mem_rivals l).1 hd).1) ⟨c, self_mem_rivals l hc⟩

theorem rivals_card_pos {c : V × X} (hc : c ∈ claims l) : (0 : ℝ) < (rivals l c).card := by
  have : (rivals l c).Nonempty := ⟨c, self_mem_rivals l hc⟩
  exact_mod_cast this.card_pos

theorem priorOf_pos (p : Prior) {c : V × X} (hc : c ∈ claims l) : 0 < priorOf l p c := by
  cases p with
  | fixed => simp [priorOf, priorFixed]
  | voted => exact div_pos (nSources_pos l hc) (rivals_sum_pos hc)
  | count => exact nSources_pos l hc
  | uniform => exact div_pos one_pos (rivals_card_pos hc)

theorem priorBeliefs_rep (p : Prior) : priorBeliefs (some p) (matsOf l f) = .ok (repC l (priorOf l p)) := by
  cases p with
  | fixed =>
    simp only [priorBeliefs, priorOf]
    congr 1
    show List.replicate (claims l).length _ = _
    simp [repC, priorFixed]
  | voted =>
    simp only [priorBeliefs, priorOf, sourceCounts_rep, mutEx_repC]
    congr 1
    apply vzipC
    intro c hc
    rw [div_eq _ (rivals_sum_pos hc).ne']; rfl
  | count => simp only [priorBeliefs, priorOf, sourceCounts_rep, priorCount]
  | uniform =>
    simp only [priorBeliefs, priorOf]
    have : (ones (matsOf l f).numClaims : Vec Ex) = repC l (fun _ => 1) := ones_claims l f
    rw [this, mutEx_repC]
    congr 1
    apply mapC
    intro c hc
    have h0 : (∑ d ∈ rivals l c, (1 : ℝ)) = (rivals l c).card := by simp
    rw [h0]
    simp only [ofNat_eq, Nat.cast_one]
    rw [div_eq _ (rivals_card_pos hc).ne']; rfl

/-! ### Sums -/

/-- All claims have positive belief. -/
def PosB (l : List (S × V × X)) (p : Scores S V X) : Prop := ∀ c ∈ claims l, 0 < p.2 c

theorem sumTrust_pos {b : V × X → ℝ} (hb : ∀ c ∈ claims l, 0 < b c) {s : S} (hs : s ∈ sources l) :
    0 < sumTrust l b s :=
  Finset.sum_pos (fun _ hc => hb _ (mem_claims_of_claimsOf l hc)) (claimsOf_nonempty l hs)

theorem sumBelief_pos {t : S → ℝ} (ht : ∀ s ∈ sources l, 0 < t s) {c : V × X} (hc : c ∈ claims l) :
    0 < sumBelief l t c :=
  Finset.sum_pos (fun _ hs => ht _ (mem_sources_of_sourcesOf l hs)) (sourcesOf_nonempty l hc)

theorem topS_pos (hl : l ≠ []) {t : S → ℝ} (ht : ∀ s ∈ sources l, 0 < t s) :
    0 < top (allSources l) t := by
  obtain ⟨s, hs⟩ := allSources_nonempty hl
  exact top_pos hs (ht s ((mem_allSources l).1 hs))
theorem topC_pos (hl : l ≠ []) {t : V × X → ℝ} (ht : ∀ s ∈ claims l, 0 < t s) :
    0 < top (allClaims l) t := by
  obtain ⟨s, hs⟩ := allClaims_nonempty hl
  exact top_pos hs (ht s ((mem_allClaims l).1 hs))

theorem sums_implements (hl : l ≠ []) (it : IterCfg Ex) (p : Prior) :
    Implements ⟨.sums, it, some p⟩ l f ((fun _ => 0), priorOf l p) (sumsStep l)
      (fun q => (q.1, (sumsStep l q).1)) (PosB l) where
  init_eq := by
    simp only [AlgCfg.init, priorBeliefs_rep, bind, Except.bind, pure, Except.pure]
    rw [zeros_sources]; rfl
  inv_init := fun c hc => priorOf_pos p hc
  body_eq := by
    intro q hq
    have h1 := topS_pos hl (fun s hs => sumTrust_pos hq hs)
    have h2 := topC_pos hl (fun c hc => sumBelief_pos (t := sumTrust l q.2)
      (fun s hs => sumTrust_pos hq hs) hc)
    simp only [Kind.body, sumsBody, sc_repC, scT_repS, bind, Except.bind, pure, Except.pure,
      normalise_repS hl h1.ne', normalise_repC hl h2.ne']
    rfl
  inv_step := by
    intro q hq c hc
    exact scaled_pos ((mem_allClaims l).2 hc)
      (sumBelief_pos (fun s hs => sumTrust_pos hq hs) hc)

/-! ### AverageLog -/

/-- Source with at least two claims. -/
def Multi (l : List (S × V × X)) (s : S) : Prop := 2 ≤ (claimsOf l s).card

/-- Beliefs are non-negative, and positive where a source with two claims claims. -/
def AvInv (l : List (S × V × X)) (p : Scores S V X) : Prop :=
  (∀ c ∈ claims l, 0 ≤ p.2 c) ∧ ∀ s, Multi l s → ∀ c ∈ claimsOf l s, 0 < p.2 c

/-- Unnormalised AverageLog trust. -/
noncomputable def avT (l : List (S × V × X)) (b : V × X → ℝ) (s : S) : ℝ :=
  Real.log (nClaims l s) / nClaims l s * sumTrust l b s

theorem avT_nonneg {b : V × X → ℝ} (hb : ∀ c ∈ claims l, 0 ≤ b c) {s : S} (hs : s ∈ sources l) :
    0 ≤ avT l b s := by
  have h1 : 1 ≤ nClaims l s := by
    have := (claimsOf_nonempty l hs).card_pos
    unfold nClaims; exact_mod_cast this
  exact mul_nonneg (div_nonneg (Real.log_nonneg h1) (by linarith))
    (Finset.sum_nonneg fun c hc => hb c (mem_claims_of_claimsOf l hc))

theorem avT_pos {p : Scores S V X} (hp : AvInv l p) {s : S} (hm : Multi l s) : 0 < avT l p.2 s := by
  have h1 : (2 : ℝ) ≤ nClaims l s := by unfold nClaims; exact_mod_cast hm
  have hne : (claimsOf l s).Nonempty := by
    rw [← Finset.card_pos]; unfold Multi at hm; omega
  exact mul_pos (div_pos (Real.log_pos (by linarith)) (by linarith))
    (Finset.sum_pos (fun c hc => hp.2 s hm c hc) hne)

theorem multi_mem {s : S} (hm : Multi l s) : s ∈ sources l := by
  have hne : (claimsOf l s).Nonempty := by
    rw [← Finset.card_pos]; unfold Multi at hm; omega
  obtain ⟨c, hc⟩ := hne
  exact mem_sources_of_sourcesOf l ((mem_sourcesOf l).2 ((mem_claimsOf l).1 hc))

theorem avB_pos {p : Scores S V X} (hp : AvInv l p) {s : S} (hm : Multi l s) {c : V × X}
    (hc : c ∈ claimsOf l s) : 0 < sumBelief l (avT l p.2) c := by
  refine Finset.sum_pos' (fun r hr => avT_nonneg hp.1 (mem_sources_of_sourcesOf l hr)) ⟨s, ?_, avT_pos hp hm⟩
  exact (mem_sourcesOf l).2 ((mem_claimsOf l).1 hc)

theorem avlogWeights_rep : avlogWeights (matsOf l f) =
    repS l fun s => Real.log (nClaims l s) / nClaims l s := by
  unfold avlogWeights
  rw [claimCounts_rep]
  apply mapS
  intro s hs
  rw [log_eq (nClaims_pos l hs), div_eq _ (nClaims_pos l hs).ne']

theorem avlog_implements (it : IterCfg Ex) (p : Prior) (hm : ∃ s, Multi l s) :
    Implements ⟨.averageLog, it, some p⟩ l f ((fun _ => 0), priorOf l p) (avlogStep l)
      (fun q => ((avlogStep l q).1, q.1)) (AvInv l) where
  init_eq := by
    simp only [AlgCfg.init, priorBeliefs_rep, bind, Except.bind, pure, Except.pure]
    rw [zeros_sources]; rfl
  inv_init := ⟨fun c hc => (priorOf_pos p hc).le,
    fun s _ c hc => priorOf_pos p (mem_claims_of_claimsOf l hc)⟩
  body_eq := by
    intro q hq
    obtain ⟨s, hs⟩ := hm
    have hsm := multi_mem hs
    have hl : l ≠ [] := by rintro rfl; simp [sources, firsts, firstsBy] at hsm
    have h1 : 0 < top (allSources l) (avT l q.2) := top_pos ((mem_allSources l).2 hsm) (avT_pos hq hs)
    obtain ⟨c, hc⟩ : (claimsOf l s).Nonempty := claimsOf_nonempty l hsm
    have h2 : 0 < top (allClaims l) (sumBelief l (avT l q.2)) :=
      top_pos ((mem_allClaims l).2 (mem_claims_of_claimsOf l hc)) (avB_pos hq hs hc)
    have hz : vzip Arith.mul (avlogWeights (matsOf l f)) (repS l (sumTrust l q.2)) =
        repS l (avT l q.2) := by
      rw [avlogWeights_rep]
      exact vzipS fun s _ => by rw [mul_eq]; rfl
    simp only [Kind.body, avlogBody, sc_repC, hz, scT_repS, bind, Except.bind, pure, Except.pure,
      normalise_repS hl h1.ne', normalise_repC hl h2.ne']
    rfl
  inv_step := by
    intro q hq
    constructor
    · intro c hc
      refine scaled_nonneg ((mem_allClaims l).2 hc) ?_
      exact Finset.sum_nonneg fun r hr => avT_nonneg hq.1 (mem_sources_of_sourcesOf l hr)
    · intro s hs c hc
      exact scaled_pos ((mem_allClaims l).2 (mem_claims_of_claimsOf l hc)) (avB_pos hq hs hc)

/-! ### Investment and PooledInvestment -/

/-- All scores are positive. -/
def PosAll (l : List (S × V × X)) (p : Scores S V X) : Prop :=
  (∀ s ∈ sources l, 0 < p.1 s) ∧ ∀ c ∈ claims l, 0 < p.2 c

theorem invested_pos {t : S → ℝ} (ht : ∀ s ∈ sources l, 0 < t s) {c : V × X} (hc : c ∈ claims l) :
    0 < invested l t c :=
  sumBelief_pos (t := fun s => t s / nClaims l s) (fun s hs => div_pos (ht s hs) (nClaims_pos l hs)) hc

theorem regained_pos {p : Scores S V X} (hp : PosAll l p) {s : S} (hs : s ∈ sources l) :
    0 < regained l p s :=
  Finset.sum_pos (fun c hc => by
    have hc' := mem_claims_of_claimsOf l hc
    exact mul_pos (hp.2 c hc') (div_pos (div_pos (hp.1 s hs) (nClaims_pos l hs))
      (invested_pos hp.1 hc'))) (claimsOf_nonempty l hs)

theorem updateTrust_rep {p : Scores S V X} (hp : PosAll l p) :
    updateTrust (matsOf l f) (repS l p.1) (repC l p.2) = some (repS l (regained l p)) := by
  have h1 : vzip Arith.div (repS l p.1) (claimCounts (matsOf l f)) =
      repS l fun s => p.1 s / nClaims l s := by
    rw [claimCounts_rep]
    exact vzipS fun s hs => div_eq _ (nClaims_pos l hs).ne'
  have h2 : sumBelief l (fun s => p.1 s / nClaims l s) = invested l p.1 := rfl
  have h3 : ((repC l (invested l p.1)).any fun x => Arith.eq x (Arith.ofNat 0)) = false := by
    rw [List.any_eq_false]
    intro x hx
    simp only [repC, List.mem_map] at hx
    obtain ⟨c, hc, rfl⟩ := hx
    have := (invested_pos hp.1 hc).ne'
    simpa using this
  have h4 : (repC l (invested l p.1)).map ((Arith.ofNat 1 : Ex) /. ·) =
      repC l fun c => 1 / invested l p.1 c := by
    apply mapC
    intro c hc
    simp only [ofNat_eq, Nat.cast_one]
    exact div_eq _ (invested_pos hp.1 hc).ne'
  have h5 : ((matsOf l f).sc.scaleCols (repC l fun c => 1 / invested l p.1 c)).mulVec (repC l p.2) =
      repS l fun s => ∑ c ∈ claimsOf l s, (1 / invested l p.1 c) * p.2 c := by
    unfold repC repS
    rw [sc_eq_ofRel, Mat.scaleCols_ofRel, Mat.mulVec_ofRel]
    apply List.map_congr_left
    intro s _
    rw [rowDot_eq (nodup_claims l) (fun c => (s, c) ∈ recorded l)
      (h := fun c => 1 / invested l p.1 c)]
    · rw [claims_toFinset]
      simp only [claimsOf]
      congr!
    · intro c _
      rw [scL_eq]
      split <;> simp
  simp only [updateTrust, h1, scT_repS, h2, h3, Bool.false_eq_true, ↓reduceIte, h4, h5]
  congr 1
  apply vzipS
  intro s hs
  rw [mul_eq, regained, Finset.mul_sum]
  congr 1
  apply Finset.sum_congr rfl
  intro c _
  ring

theorem invested_rep {t : S → ℝ} :
    (matsOf l f).sc.T.mulVec (vzip Arith.div (repS l t) (claimCounts (matsOf l f))) =
      repC l (invested l t) := by
  have h1 : vzip Arith.div (repS l t) (claimCounts (matsOf l f)) =
      repS l fun s => t s / nClaims l s := by
    rw [claimCounts_rep]
    exact vzipS fun s hs => div_eq _ (nClaims_pos l hs).ne'
  rw [h1, scT_repS]; rfl

theorem invest_implements (hl : l ≠ []) (it : IterCfg Ex) (p : Prior) (g : ℝ) :
    Implements ⟨.investment (fin g), it, some p⟩ l f ((fun _ => 1), priorOf l p) (investStep l g)
      (fun q => ((investStep l g q).1, q.1)) (PosAll l) where
  init_eq := by
    simp only [AlgCfg.init, priorBeliefs_rep, bind, Except.bind, pure, Except.pure]
    rw [ones_sources]; rfl
  inv_init := ⟨fun _ _ => one_pos, fun c hc => priorOf_pos p hc⟩
  body_eq := by
    intro q hq
    have hr : ∀ s ∈ sources l, 0 < regained l q s := fun s hs => regained_pos hq hs
    have h1 := topS_pos hl hr
    have hb : ∀ c ∈ claims l, 0 < invested l (regained l q) c ^ g :=
      fun c hc => Real.rpow_pos_of_pos (invested_pos hr hc) g
    have h2 := topC_pos hl hb
    have hpow : (repC l (invested l (regained l q))).map (Arith.pow · (fin g)) =
        repC l fun c => invested l (regained l q) c ^ g :=
      mapC fun c hc => pow_eq (invested_pos hr hc) g
    simp only [Kind.body, investBody, updateTrust_rep f hq, invested_rep, hpow, bind, Except.bind,
      pure, Except.pure, normalise_repS hl h1.ne', normalise_repC hl h2.ne']
    rfl
  inv_step := by
    intro q hq
    have hr : ∀ s ∈ sources l, 0 < regained l q s := fun s hs => regained_pos hq hs
    exact ⟨fun s hs => scaled_pos ((mem_allSources l).2 hs) (hr s hs),
      fun c hc => scaled_pos ((mem_allClaims l).2 hc) (Real.rpow_pos_of_pos (invested_pos hr hc) g)⟩

theorem pooledB_pos {q : Scores S V X} (hq : PosAll l q) (g : ℝ) {c : V × X} (hc : c ∈ claims l) :
    0 < invested l (regained l q) c * (invested l (regained l q) c ^ g /
      ∑ d ∈ rivals l c, invested l (regained l q) d ^ g) := by
  have hr : ∀ s ∈ sources l, 0 < regained l q s := fun s hs => regained_pos hq hs
  have hb : ∀ c ∈ claims l, 0 < invested l (regained l q) c ^ g :=
    fun c hc => Real.rpow_pos_of_pos (invested_pos hr hc) g
  exact mul_pos (invested_pos hr hc) (div_pos (hb c hc)
    (Finset.sum_pos (fun d hd => hb d ((mem_rivals l).1 hd).1) ⟨c, self_mem_rivals l hc⟩))

theorem pooled_implements (hl : l ≠ []) (it : IterCfg Ex) (p : Prior) (g : ℝ) :
    Implements ⟨.pooledInvestment (fin g), it, some p⟩ l f ((fun _ => 1), priorOf l p)
      (pooledStep l g) (fun q => ((pooledStep l g q).1, q.1)) (PosAll l) where
  init_eq := by
    simp only [AlgCfg.init, priorBeliefs_rep, bind, Except.bind, pure, Except.pure]
    rw [ones_sources]; rfl
  inv_init := ⟨fun _ _ => one_pos, fun c hc => priorOf_pos p hc⟩
  body_eq := by
    intro q hq
    have hr : ∀ s ∈ sources l, 0 < regained l q s := fun s hs => regained_pos hq hs
    have h1 := topS_pos hl hr
    have hb : ∀ c ∈ claims l, 0 < invested l (regained l q) c ^ g :=
      fun c hc => Real.rpow_pos_of_pos (invested_pos hr hc) g
    have h2 := topC_pos hl (fun c hc => pooledB_pos hq g hc)
    have hpow : (repC l (invested l (regained l q))).map (Arith.pow · (fin g)) =
        repC l fun c => invested l (regained l q) c ^ g :=
      mapC fun c hc => pow_eq (invested_pos hr hc) g
    have hshare : vzip Arith.div (repC l fun c => invested l (regained l q) c ^ g)
        (repC l fun c => ∑ d ∈ rivals l c, invested l (regained l q) d ^ g) =
        repC l fun c => invested l (regained l q) c ^ g /
          ∑ d ∈ rivals l c, invested l (regained l q) d ^ g :=
      vzipC fun c hc => div_eq _ (Finset.sum_pos (fun d hd => hb d ((mem_rivals l).1 hd).1)
        ⟨c, self_mem_rivals l hc⟩).ne'
    have hprod : vzip Arith.mul (repC l (invested l (regained l q)))
        (repC l fun c => invested l (regained l q) c ^ g /
          ∑ d ∈ rivals l c, invested l (regained l q) d ^ g) =
        repC l fun c => invested l (regained l q) c * (invested l (regained l q) c ^ g /
          ∑ d ∈ rivals l c, invested l (regained l q) d ^ g) :=
      vzipC fun c _ => mul_eq _ _
    simp only [Kind.body, pooledBody, updateTrust_rep f hq, invested_rep, hpow, mutEx_repC, hshare,
      hprod, bind, Except.bind, pure, Except.pure, normalise_repS hl h1.ne',
      normalise_repC hl h2.ne']
    rfl
  inv_step := by
    intro q hq
    have hr : ∀ s ∈ sources l, 0 < regained l q s := fun s hs => regained_pos hq hs
    exact ⟨fun s hs => scaled_pos ((mem_allSources l).2 hs) (hr s hs),
      fun c hc => scaled_pos ((mem_allClaims l).2 hc) (pooledB_pos hq g hc)⟩

end TD
