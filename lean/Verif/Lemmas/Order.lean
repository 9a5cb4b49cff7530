import Verif.Props.Sound
import Verif.Spec.Order
import Mathlib.Data.List.Forall2

/-! Datasets that record the same claims. -/

namespace TD
open Spec Ex
attribute [-instance] instBEqProd

variable {S V X : Type} [DecidableEq S] [DecidableEq V] [DecidableEq X]

namespace Spec.SameClaims
variable {l l' : List (S × V × X)}

theorem symm (h : SameClaims l l') : SameClaims l' l := fun t => (h t).symm

theorem allSources (h : SameClaims l l') : allSources l = allSources l' := by
  ext s
  simp only [Spec.allSources, List.mem_toFinset, List.mem_map, h _]

theorem allClaims (h : SameClaims l l') : allClaims l = allClaims l' := by
  ext s
  simp only [Spec.allClaims, List.mem_toFinset, List.mem_map, h _]

theorem claimsOf (h : SameClaims l l') : claimsOf l = claimsOf l' := by
  funext s
  ext c
  rw [mem_claimsOf l, mem_claimsOf l', h]

theorem sourcesOf (h : SameClaims l l') : sourcesOf l = sourcesOf l' := by
  funext c
  ext s
  rw [mem_sourcesOf l, mem_sourcesOf l', h]

theorem rivals (h : SameClaims l l') : rivals l = rivals l' := by
  funext c
  simp only [Spec.rivals, h.allClaims]

theorem nClaims (h : SameClaims l l') : nClaims l = nClaims l' := by
  funext c
  simp only [Spec.nClaims, h.claimsOf]

theorem nSources (h : SameClaims l l') : nSources l = nSources l' := by
  funext c
  simp only [Spec.nSources, h.sourcesOf]

theorem priorOf (h : SameClaims l l') (p : Prior) : priorOf l p = priorOf l' p := by
  cases p <;> funext c <;>
    simp only [Spec.priorOf, priorVoted, priorCount, priorUniform, h.nSources, h.rivals]

theorem sumTrust (h : SameClaims l l') : sumTrust l = sumTrust l' := by
  funext b s; simp only [Spec.sumTrust, h.claimsOf]

theorem sumBelief (h : SameClaims l l') : sumBelief l = sumBelief l' := by
  funext b s; simp only [Spec.sumBelief, h.sourcesOf]

theorem normBoth (h : SameClaims l l') : normBoth l = normBoth l' := by
  funext p; simp only [Spec.normBoth, h.allSources, h.allClaims]

theorem sumsStep (h : SameClaims l l') : sumsStep l = sumsStep l' := by
  funext p; simp only [Spec.sumsStep, h.normBoth, h.sumTrust, h.sumBelief]

theorem avlogStep (h : SameClaims l l') : avlogStep l = avlogStep l' := by
  funext p; simp only [Spec.avlogStep, h.normBoth, h.sumTrust, h.sumBelief, h.nClaims]

theorem invested (h : SameClaims l l') : invested l = invested l' := by
  funext b s; simp only [Spec.invested, h.sourcesOf, h.nClaims]

theorem regained (h : SameClaims l l') : regained l = regained l' := by
  funext b s; simp only [Spec.regained, h.claimsOf, h.nClaims, h.invested]

theorem investStep (h : SameClaims l l') : investStep l = investStep l' := by
  funext g p; simp only [Spec.investStep, h.normBoth, h.regained, h.invested]

theorem pooledStep (h : SameClaims l l') : pooledStep l = pooledStep l' := by
  funext g p; simp only [Spec.pooledStep, h.normBoth, h.regained, h.invested, h.rivals]

theorem tfStep (h : SameClaims l l') : tfStep l = tfStep l' := by
  funext imp rho gamma p
  simp only [Spec.tfStep, h.sourcesOf, h.claimsOf, h.rivals, h.nClaims]

theorem crhStep (h : SameClaims l l') : crhStep l = crhStep l' := by
  funext eps p
  simp only [Spec.crhStep, Spec.loss, h.sourcesOf, h.claimsOf, h.rivals, h.allSources]

theorem crhInit (h : SameClaims l l') : crhInit l = crhInit l' := by
  simp only [TD.crhInit, h.nSources, h.allSources]

theorem usumsResc (h : SameClaims l l') : usumsResc l = usumsResc l' := by
  funext p
  simp only [TD.usumsResc, Spec.usumsStep, h.allSources, h.allClaims, h.sumTrust, h.sumBelief]

theorem sound (h : SameClaims l l') {c : AlgCfg Ex} (hc : Sound l c) : Sound l' c := by
  obtain ⟨k, it, pr⟩ := c
  cases k <;> simp only [Sound, h.claimsOf] at hc ⊢ <;> exact hc

theorem ne_nil (h : SameClaims l l') (hl : l ≠ []) : l' ≠ [] := by
  rintro rfl
  obtain ⟨s, hs⟩ := List.exists_mem_of_ne_nil _ (sources_ne hl)
  have := (mem_allSources l).2 hs
  rw [h.allSources] at this
  simp [Spec.allSources, recorded, firstsBy] at this

theorem of_perm (h : l.Perm l') (hn : NoRepeats l) : SameClaims l l' ∧ NoRepeats l' := by
  have hn' : NoRepeats l' := ((h.map fun t : S × V × X => (t.1, t.2.1)).nodup_iff).1 hn
  refine ⟨fun t => ?_, hn'⟩
  rw [recorded_eq_self hn, recorded_eq_self hn', h.mem_iff]

end Spec.SameClaims

variable {l l' : List (S × V × X)} {f : Option (V → X → X → Option ℝ)}

/-- Both datasets compute the same iterates. -/
theorem sound_implements₂ (h : SameClaims l l') (hl : l ≠ []) {c : AlgCfg Ex} (hc : Sound l c) :
    ∃ init step cmp Inv Inv', Implements c l (finImp f) init step cmp Inv ∧
      Implements c l' (finImp f) init step cmp Inv' := by
  have hl' := h.ne_nil hl
  have hc' := h.sound hc
  obtain ⟨k, it, pr⟩ := c
  have hp : ∀ {pr : Option Prior}, pr ≠ none → ∃ p, pr = some p :=
    fun h => Option.ne_none_iff_exists'.1 h
  cases k with
  | sums =>
    obtain ⟨p, rfl⟩ := hp hc
    refine ⟨_, _, _, _, PosB l', sums_implements _ hl it p, ?_⟩
    rw [h.priorOf, h.sumsStep]
    exact sums_implements _ hl' it p
  | averageLog =>
    obtain ⟨p, rfl⟩ := hp hc.1
    refine ⟨_, _, _, _, AvInv l', avlog_implements _ it p hc.2, ?_⟩
    rw [h.priorOf, h.avlogStep]
    exact avlog_implements _ it p hc'.2
  | investment g =>
    obtain ⟨h1, y, rfl⟩ := hc
    obtain ⟨p, rfl⟩ := hp h1
    refine ⟨_, _, _, _, PosAll l', invest_implements _ hl it p y, ?_⟩
    rw [h.priorOf, h.investStep]
    exact invest_implements _ hl' it p y
  | pooledInvestment g =>
    obtain ⟨h1, y, rfl⟩ := hc
    obtain ⟨p, rfl⟩ := hp h1
    refine ⟨_, _, _, _, PosAll l', pooled_implements _ hl it p y, ?_⟩
    rw [h.priorOf, h.pooledStep]
    exact pooled_implements _ hl' it p y
  | truthFinder rho gamma t =>
    obtain ⟨a, b, y, rfl, rfl, rfl, h0, h1⟩ := hc
    refine ⟨_, _, _, _, TfInv l', tf_implements f it pr a b y h0 h1, ?_⟩
    rw [h.tfStep]
    exact tf_implements f it pr a b y h0 h1
  | crh eps =>
    obtain ⟨y, rfl, h0⟩ := hc
    refine ⟨_, _, _, _, fun _ => True, crh_implements hl _ it pr y h0, ?_⟩
    rw [h.crhInit, h.crhStep]
    exact crh_implements hl' _ it pr y h0
  | unboundedSums =>
    obtain ⟨h1, th, rfl⟩ := hc
    obtain ⟨p, rfl⟩ := hp h1
    refine ⟨_, _, _, _, fun _ => True, usums_implements hl (finImp f) (.ord th) p, ?_⟩
    rw [h.priorOf, h.usumsResc, h.sumTrust]
    exact usums_implements hl' (finImp f) (.ord th) p

theorem compare_same (h : SameClaims l l') (hl : l ≠ []) (it : IterCfg Ex) (st : IterState Ex) (t t' : S → ℝ) :
    it.compare st (repS l t) (repS l t') = it.compare st (repS l' t) (repS l' t') := by
  cases it with
  | fixed => rfl
  | conv ms th lim =>
    cases ms with
    | none => rfl
    | some m =>
      have e1 := getDistance_eq (nodup_sources l) (sources_ne hl) m t t'
      have e2 := getDistance_eq (nodup_sources l') (sources_ne (h.ne_nil hl)) m t t'
      rw [sources_toFinset, h.allSources, ← sources_toFinset, ← e2] at e1
      simp only [IterCfg.compare, repS]
      rw [e1]
  | ord th =>
    have e : ((sources l).map (rank (sources l).toFinset t) = (sources l).map (rank (sources l).toFinset t')) ↔
        ((sources l').map (rank (sources l').toFinset t) = (sources l').map (rank (sources l').toFinset t')) := by
      rw [ranks_eq_iff, ranks_eq_iff, sources_toFinset, sources_toFinset, h.allSources]
    simp only [IterCfg.compare, repS, rankingVector_fin, bind, Except.bind, pure, Except.pure, e]

/-- Log entries for the two datasets. -/
def logOf (l : List (S × V × X)) (ps : List (Nat × Scores S V X)) : List (LogEntry Ex) :=
  ps.map fun p => ⟨p.1, repS l p.2.1, repC l p.2.2⟩

theorem loop_same (h : SameClaims l l') (hl : l ≠ []) {c : AlgCfg Ex} {init : Scores S V X}
    {step : Scores S V X → Scores S V X} {cmp : Scores S V X → (S → ℝ) × (S → ℝ)}
    {Inv Inv' : Scores S V X → Prop} (H : Implements c l (finImp f) init step cmp Inv)
    (H' : Implements c l' (finImp f) init step cmp Inv') (fuel : Nat) :
    ∀ (st : IterState Ex) (p : Scores S V X) (ps : List (Nat × Scores S V X)), Inv p → Inv' p →
    (∃ e, loop c.iterator (c.kind.body (matsOf l (finImp f))) fuel st (repS l p.1) (repC l p.2) (logOf l ps) = .error e ∧
      loop c.iterator (c.kind.body (matsOf l' (finImp f))) fuel st (repS l' p.1) (repC l' p.2) (logOf l' ps) = .error e) ∨
    (∃ (st' : IterState Ex) (q : Scores S V X) (qs : List (Nat × Scores S V X)),
      loop c.iterator (c.kind.body (matsOf l (finImp f))) fuel st (repS l p.1) (repC l p.2) (logOf l ps) =
        .ok ⟨st', repS l q.1, repC l q.2, logOf l qs⟩ ∧
      loop c.iterator (c.kind.body (matsOf l' (finImp f))) fuel st (repS l' p.1) (repC l' p.2) (logOf l' ps) =
        .ok ⟨st', repS l' q.1, repC l' q.2, logOf l' qs⟩) := by
  induction fuel with
  | zero => exact fun _ _ _ _ _ => .inl ⟨_, rfl, rfl⟩
  | succ n ih =>
    intro st p ps hp hp'
    cases hf : c.iterator.finished st with
    | error e =>
      refine .inl ⟨e, ?_, ?_⟩ <;> simp only [loop, hf, bind, Except.bind]
    | ok b =>
      cases b with
      | true =>
        refine .inr ⟨st, p, ps, ?_, ?_⟩ <;>
          simp only [loop, hf, bind, Except.bind, ↓reduceIte, pure, Except.pure]
      | false =>
        have hcmp := compare_same h hl c.iterator st (cmp p).1 (cmp p).2
        cases hc : c.iterator.compare st (repS l (cmp p).1) (repS l (cmp p).2) with
        | error e =>
          have hc' := hcmp ▸ hc
          refine .inl ⟨e, ?_, ?_⟩ <;>
            simp only [loop, hf, bind, Except.bind, H.body_eq p hp, H'.body_eq p hp', hc, hc',
              Bool.false_eq_true, ↓reduceIte]
        | ok st' =>
          have hc' := hcmp ▸ hc
          have := ih st' (step p) (ps ++ [(st'.itCount, step p)]) (H.inv_step p hp) (H'.inv_step p hp')
          simpa only [loop, hf, bind, Except.bind, H.body_eq p hp, H'.body_eq p hp', hc, hc',
              Bool.false_eq_true, ↓reduceIte, logOf, List.map_append, List.map_cons, List.map_nil] using this

theorem finish_same (h : SameClaims l l') (c : AlgCfg Ex) (q : Scores S V X) :
    (∃ e, c.finish (repS l q.1) (repC l q.2) = .error e ∧ c.finish (repS l' q.1) (repC l' q.2) = .error e) ∨
    ∃ q' : Scores S V X, c.finish (repS l q.1) (repC l q.2) = .ok (repS l q'.1, repC l q'.2) ∧
      c.finish (repS l' q.1) (repC l' q.2) = .ok (repS l' q'.1, repC l' q'.2) := by
  obtain ⟨k, it, pr⟩ := c
  cases k with
  | unboundedSums =>
    cases it with
    | ord th =>
      refine .inr ⟨(fun s => rank (allSources l) q.1 s, fun c => rank (allClaims l) q.2 c), ?_, ?_⟩
      · simp only [AlgCfg.finish, repS, repC, rankingVector_fin, bind, Except.bind, pure, Except.pure,
          List.map_map, sources_toFinset, claims_toFinset]
        rfl
      · simp only [AlgCfg.finish, repS, repC, rankingVector_fin, bind, Except.bind, pure, Except.pure,
          List.map_map, sources_toFinset, claims_toFinset, h.allSources, h.allClaims]
        rfl
    | _ => exact .inl ⟨_, rfl, rfl⟩
  | _ => exact .inr ⟨q, rfl, rfl⟩

/-- The two executions have the same outcome. -/
theorem exec_same (h : SameClaims l l') (hl : l ≠ []) {c : AlgCfg Ex} (hc : Sound l c) (fuel : Nat) (st : IterState Ex) :
    (∃ e, c.exec (matsOf l (finImp f)) fuel st = .error e ∧ c.exec (matsOf l' (finImp f)) fuel st = .error e) ∨
    (∃ (q : Scores S V X) (k : Nat) (qs : List (Nat × Scores S V X)),
      c.exec (matsOf l (finImp f)) fuel st = .ok ⟨repS l q.1, repC l q.2, k, logOf l qs⟩ ∧
      c.exec (matsOf l' (finImp f)) fuel st = .ok ⟨repS l' q.1, repC l' q.2, k, logOf l' qs⟩) := by
  obtain ⟨init, step, cmp, Inv, Inv', H, H'⟩ := sound_implements₂ (f := f) h hl hc
  rw [exec_eq _ _ _ _ (Implements.numClaims_ne hl), exec_eq _ _ _ _ (Implements.numClaims_ne (h.ne_nil hl)), H.init_eq,
    H'.init_eq]
  simp only
  have e1 : initLog c (repS l init.1) (repC l init.2) = logOf l (if c.kind.logsInit then [(0, init)] else []) := by
    unfold initLog logOf; split <;> rfl
  have e2 : initLog c (repS l' init.1) (repC l' init.2) = logOf l' (if c.kind.logsInit then [(0, init)] else []) := by
    unfold initLog logOf; split <;> rfl
  rw [e1, e2]
  rcases loop_same h hl H H' fuel {} init (if c.kind.logsInit then [(0, init)] else []) H.inv_init H'.inv_init with
    ⟨e, a1, a2⟩ | ⟨st', q, qs, a1, a2⟩
  · exact .inl ⟨e, by rw [a1], by rw [a2]⟩
  · rw [a1, a2]
    simp only
    rcases finish_same h c q with ⟨e, b1, b2⟩ | ⟨q', b1, b2⟩
    · exact .inl ⟨e, by rw [b1], by rw [b2]⟩
    · exact .inr ⟨q', st'.itCount, qs, by rw [b1], by rw [b2]⟩

theorem isSome_beliefOf {cs : List (V × X)} {α : Type} {y : List α} {v : V} :
    (Dict.get? (beliefOf cs y) v).isSome = decide (v ∈ cs.map Prod.fst) := by
  unfold beliefOf Dict.get?
  rw [lookup_map_key]
  simp only [mem_firsts]
  split <;> simp_all

theorem same_resultOf (h : SameClaims l l') (q : Scores S V X) (time : Ex) (k : Option Nat) :
    SameResult (resultOf l (repS l q.1) (repC l q.2) time k) (resultOf l' (repS l' q.1) (repC l' q.2) time k) := by
  have r1 := reports_resultOf l q time k
  have r2 := reports_resultOf l' q time k
  refine ⟨fun s => ?_, fun v => ?_, fun v x => ?_, rfl, rfl⟩
  · rw [r1.1, r2.1, h.allSources]
  · simp only [resultOf, isSome_beliefOf, decide_eq_decide]
    simp only [List.mem_map, ← mem_allClaims, h.allClaims]
  · rw [r1.2, r2.2, h.allClaims]

end TD
