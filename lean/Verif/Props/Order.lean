import Verif.Lemmas.Order
import Verif.Props.Results
/-!
# C40: the order of the input does not matter
-/

namespace TD
open Spec Ex
attribute [-instance] instBEqProd

variable {S V X : Type} [DecidableEq S] [DecidableEq V] [DecidableEq X] {l l' : List (S × V × X)}
  {f : Option (V → X → X → Option ℝ)}

/-- **C40.** The constructor accepts every order or none. -/
theorem C40_constructor {α : Type} [Arith α] (h10 : Arith.eq (Arith.ofNat 1 : α) (Arith.ofNat 0) = false)
    (h : l.Perm l') (hn : NoRepeats l) (am : Bool) (f : Option (V → X → X → Option α)) :
    (∃ d, Dataset.mk' l am f = .ok d) ↔ ∃ d, Dataset.mk' l' am f = .ok d := by
  have key : ∀ {l l' : List (S × V × X)}, l.Perm l' → NoRepeats l → (∃ d, Dataset.mk' l am f = .ok d) →
      ∃ d, Dataset.mk' l' am f = .ok d := by
    rintro l l' h hn ⟨d, hd⟩
    obtain ⟨hs, hn'⟩ := SameClaims.of_perm h hn
    obtain ⟨-, -, hbad⟩ := (mk'_ok_iff l h10 am f d).1 hd
    refine ⟨_, (mk'_ok_iff l' h10 am f _).2 ⟨rfl, .inr hn', ?_⟩⟩
    cases f with
    | none => exact id
    | some f =>
      simp only [optImpBad, impBad, ← mem_allClaims] at hbad ⊢
      rwa [← hs.allClaims]
  exact ⟨key h hn, key h.symm (SameClaims.of_perm h hn).2⟩

/-- Any two datasets that record the same claims: `run`. -/
theorem run_same (h : SameClaims l l') {am am' : Bool} {d d' : Dataset S V X Ex}
    (hd : Dataset.mk' l am (finImp f) = .ok d) (hd' : Dataset.mk' l' am' (finImp f) = .ok d')
    (hl : l ≠ []) {c : AlgCfg Ex} (hc : Sound l c) (fuel : Nat) (clock : Nat → Ex) (st : IterState Ex) :
    SameOutcome SameResult (c.run d fuel clock st) (c.run d' fuel clock st) := by
  obtain rfl := mk'_ex hd
  obtain rfl := mk'_ex hd'
  rw [run_eq, run_eq]
  rcases exec_same (f := f) h hl hc fuel st with ⟨e, h1, h2⟩ | ⟨q, k, qs, h1, h2⟩
  · rw [h1, h2]; rfl
  · rw [h1, h2]
    exact same_resultOf h q _ _

/-- Any two datasets that record the same claims: `run_iter`. -/
theorem runIter_same (h : SameClaims l l') {am am' : Bool} {d d' : Dataset S V X Ex}
    (hd : Dataset.mk' l am (finImp f) = .ok d) (hd' : Dataset.mk' l' am' (finImp f) = .ok d')
    (hl : l ≠ []) {c : AlgCfg Ex} (hc : Sound l c) (fuel : Nat) (clock : Nat → Ex) (st : IterState Ex) :
    SameOutcome (List.Forall₂ SameResult) (c.runIter d fuel clock st) (c.runIter d' fuel clock st) := by
  obtain rfl := mk'_ex hd
  obtain rfl := mk'_ex hd'
  rw [runIter_eq, runIter_eq]
  rcases exec_same (f := f) h hl hc fuel st with ⟨e, h1, h2⟩ | ⟨q, k, qs, h1, h2⟩
  · rw [h1, h2]; rfl
  · rw [h1, h2]
    simp only [SameOutcome, logOf, enum]
    rw [List.zipIdx_map, List.zipIdx_map, List.map_map, List.map_map, List.map_map, List.map_map,
      List.forall₂_map_left_iff, List.forall₂_map_right_iff, List.forall₂_same]
    intro x _
    exact same_resultOf h x.1.2 _ _

/-- **C40.** Permuting the triples changes neither the exception nor any attribute of the
result of `run`. -/
theorem C40_run (h : l.Perm l') (hn : NoRepeats l) {am am' : Bool} {d d' : Dataset S V X Ex}
    (hd : Dataset.mk' l am (finImp f) = .ok d) (hd' : Dataset.mk' l' am' (finImp f) = .ok d')
    (hl : l ≠ []) {c : AlgCfg Ex} (hc : Sound l c) (fuel : Nat) (clock : Nat → Ex) (st : IterState Ex) :
    SameOutcome SameResult (c.run d fuel clock st) (c.run d' fuel clock st) :=
  run_same (SameClaims.of_perm h hn).1 hd hd' hl hc fuel clock st

/-- **C40.** The same for the partial results of `run_iter`. -/
theorem C40_run_iter (h : l.Perm l') (hn : NoRepeats l) {am am' : Bool} {d d' : Dataset S V X Ex}
    (hd : Dataset.mk' l am (finImp f) = .ok d) (hd' : Dataset.mk' l' am' (finImp f) = .ok d')
    (hl : l ≠ []) {c : AlgCfg Ex} (hc : Sound l c) (fuel : Nat) (clock : Nat → Ex) (st : IterState Ex) :
    SameOutcome (List.Forall₂ SameResult) (c.runIter d fuel clock st) (c.runIter d' fuel clock st) :=
  runIter_same (SameClaims.of_perm h hn).1 hd hd' hl hc fuel clock st

/-- **C40.** Repeated claims of a source about a variable (with `allow_multiple`) do not matter
either: the results depend only on the set of recorded claims. -/
theorem C40_recorded (h : ∀ t, t ∈ recorded l ↔ t ∈ recorded l') {am am' : Bool} {d d' : Dataset S V X Ex}
    (hd : Dataset.mk' l am (finImp f) = .ok d) (hd' : Dataset.mk' l' am' (finImp f) = .ok d')
    (hl : l ≠ []) {c : AlgCfg Ex} (hc : Sound l c) (fuel : Nat) (clock : Nat → Ex) (st : IterState Ex) :
    SameOutcome SameResult (c.run d fuel clock st) (c.run d' fuel clock st) :=
  run_same h hd hd' hl hc fuel clock st

theorem sameResult_of_reports {r r' : Result S V X Ex} {p : Scores S V X} (h : SameClaims l l')
    (hr : Reports l r p) (hr' : Reports l' r' p)
    (hv : ∀ v, (r.belief.get? v).isSome ↔ ∃ x, (v, x) ∈ allClaims l)
    (hv' : ∀ v, (r'.belief.get? v).isSome ↔ ∃ x, (v, x) ∈ allClaims l')
    (ht : r.time = r'.time) (hi : r.iterations = r'.iterations) : SameResult r r' where
  trust s := by rw [hr.1, hr'.1, h.allSources]
  vars v := by rw [Bool.eq_iff_iff, hv, hv', h.allClaims]
  belief v x := by rw [hr.2, hr'.2, h.allClaims]
  time := ht
  iterations := hi

/-- **C40** for majority voting. -/
theorem C40_voting (h : l.Perm l') (hn : NoRepeats l) {am am' : Bool} {f : Option (V → X → X → Option Ex)}
    {d d' : Dataset S V X Ex} (hd : Dataset.mk' l am f = .ok d) (hd' : Dataset.mk' l' am' f = .ok d')
    (hl : l ≠ []) (clock : Nat → Ex) :
    SameOutcome SameResult (votingRun d clock) (votingRun d' clock) := by
  have hs := (SameClaims.of_perm h hn).1
  obtain ⟨r, h1, h2, h3⟩ := C29_voting l am f d hd hl clock
  obtain ⟨r', h1', h2', h3'⟩ := C29_voting l' am' f d' hd' (hs.ne_nil hl) clock
  have hvot : voting l = voting l' := by simp only [voting, hs.allClaims, hs.nSources]
  rw [hvot] at h2
  have key : ∀ {l : List (S × V × X)} {d : Dataset S V X Ex} {am : Bool} {r : Result S V X Ex},
      Dataset.mk' l am f = .ok d → votingRun d clock = .ok r → r.time = (clock 1 -. clock 0) ∧
      ∀ v, (r.belief.get? v).isSome ↔ ∃ x, (v, x) ∈ allClaims l := by
    intro l d am r hd hr
    obtain rfl := mk'_ex hd
    unfold votingRun at hr
    simp only [bind, Except.bind, pure, Except.pure] at hr
    split at hr; · cases hr
    split at hr; · cases hr
    split at hr; · cases hr
    split at hr; · cases hr
    rename_i _ mx _ _ t _ _ b hb
    cases hr
    refine ⟨rfl, fun v => ?_⟩
    have hlen : ((sourceCounts (datasetOf l f).mats).map (· /. mx)).length = (claims l).length := by
      show ((sourceCounts (matsOf l f)).map (· /. mx)).length = (claims l).length
      rw [sourceCounts_rep]
      simp [repC]
    rw [beliefDict_eq l f _ hlen.le, hlen, List.take_length] at hb
    cases hb
    simp only [isSome_beliefOf, decide_eq_true_eq, mem_allClaims, List.mem_map]
    constructor
    · rintro ⟨c, hc, rfl⟩; exact ⟨c.2, hc⟩
    · rintro ⟨x, hx⟩; exact ⟨_, hx, rfl⟩
  rw [h1, h1']
  exact sameResult_of_reports hs h2 h2' (key hd h1).2 (key hd' h1').2 ((key hd h1).1.trans (key hd' h1').1.symm)
    (h3.trans h3'.symm)

/-- The belief dictionaries of a result have unique keys. -/
def ProperDicts (r : Result S V X Ex) : Prop := ∀ v d, r.belief.get? v = some d → (d.map Prod.fst).Nodup ∧ d ≠ []

theorem sameMostBelieved {r r' : Result S V X Ex} (h : SameResult r r') (hp : ProperDicts r) (hp' : ProperDicts r')
    (hn : AllScores r fun _ => True) (v : V) :
    SameOutcome List.Perm (r.mostBelieved v) (r'.mostBelieved v) := by
  have hv := h.vars v
  cases hb : r.belief.get? v with
  | none =>
    rw [hb] at hv
    have hb' : r'.belief.get? v = none := by simpa using hv.symm
    rw [((C43_errors r v).1).2 hb, ((C43_errors r' v).1).2 hb']
    rfl
  | some d =>
    rw [hb] at hv
    obtain ⟨d', hb'⟩ := Option.isSome_iff_exists.1 hv.symm
    have hdd : ∀ x, d.get? x = d'.get? x := by
      intro x
      have := h.belief v x
      rw [hb, hb'] at this
      exact this
    have hnan : ∀ x y, d.get? x = some y → y ≠ (FP.nan : Ex) := by
      intro x y hxy
      obtain ⟨z, rfl, -⟩ := hn.2 v x y (by rw [hb]; exact hxy)
      nofun
    have hget : ∀ {d : Dict X Ex}, (d.map Prod.fst).Nodup → ∀ p ∈ d, d.get? p.1 = some p.2 :=
      fun hu p hp => (lookup_eq_some_iff hu).2 hp
    obtain ⟨xs, e1, -, n1, m1⟩ := C43_maximal _ r v d hb (hp v d hb).2
      (fun p hpd => hnan p.1 p.2 (hget (hp v d hb).1 p hpd)) (hp v d hb).1
    obtain ⟨ys, e2, -, n2, m2⟩ := C43_maximal _ r' v d' hb' (hp' v d' hb').2
      (fun p hpd => hnan p.1 p.2 (by rw [hdd]; exact hget (hp' v d' hb').1 p hpd)) (hp' v d' hb').1
    rw [e1, e2]
    show xs.Perm ys
    rw [List.perm_ext_iff_of_nodup n1 n2]
    intro x
    rw [m1, m2]
    simp only [hdd]

theorem proper_resultOf (l : List (S × V × X)) (t b : Vec Ex) (hlen : b.length = (claims l).length) (time : Ex)
    (k : Option Nat) : ProperDicts (resultOf l t b time k) := by
  intro v d hd
  simp only [resultOf, beliefOf, Dict.get?, lookup_map_key] at hd
  split at hd
  · rename_i hv
    cases hd
    rw [mem_firsts, List.mem_map] at hv
    obtain ⟨c, hc, rfl⟩ := hv
    constructor
    · rw [List.map_filterMap]
      have hz : ((claims l).zip b).map Prod.fst = claims l := by rw [List.map_fst_zip]; omega
      have : ((claims l).zip b).filterMap (fun p => (if p.1.1 = c.1 then some (p.1.2, p.2) else none).map Prod.fst) =
          (((claims l).zip b).map Prod.fst).filterMap (fun p => if p.1 = c.1 then some p.2 else none) := by
        rw [List.filterMap_map]
        congr 1
        funext p
        simp only [Function.comp_apply]
        split <;> rfl
      rw [this, hz]
      refine (nodup_claims l).filterMap ?_
      intro p q y hp hq
      simp only [Option.mem_def] at hp hq
      split at hp
      · split at hq
        · rename_i e1 e2
          cases hp
          simp only [Option.some.injEq] at hq
          exact Prod.ext (e1.trans e2.symm) hq.symm
        · cases hq
      · cases hp
    · obtain ⟨j, hj⟩ := List.mem_iff_getElem?.1 hc
      have hjl : j < b.length := by
        rw [hlen]; exact (List.getElem?_eq_some_iff.1 hj).1
      refine List.ne_nil_of_mem (a := (c.2, b[j])) ?_
      rw [List.mem_filterMap]
      refine ⟨(c, b[j]), ?_, by simp⟩
      rw [List.mem_iff_getElem?]
      exact ⟨j, by rw [List.getElem?_zip_eq_some]; exact ⟨hj, List.getElem?_eq_getElem hjl⟩⟩
  · cases hd

/-- **C40.** Neither do the most believed values change, except for the order of several
equally believed ones. -/
theorem C40_most_believed (h : l.Perm l') (hn : NoRepeats l) {am am' : Bool} {d d' : Dataset S V X Ex}
    (hd : Dataset.mk' l am (finImp f) = .ok d) (hd' : Dataset.mk' l' am' (finImp f) = .ok d')
    (hl : l ≠ []) {c : AlgCfg Ex} (hc : Sound l c) {fuel : Nat} {clock : Nat → Ex} {st : IterState Ex}
    {r r' : Result S V X Ex} (hr : c.run d fuel clock st = .ok r) (hr' : c.run d' fuel clock st = .ok r') (v : V) :
    SameOutcome List.Perm (r.mostBelieved v) (r'.mostBelieved v) := by
  have hs := (SameClaims.of_perm h hn).1
  have hsame := C40_run h hn hd hd' hl hc fuel clock st
  rw [hr, hr'] at hsame
  obtain rfl := mk'_ex hd
  obtain rfl := mk'_ex hd'
  have key : ∀ {l : List (S × V × X)} {r : Result S V X Ex}, c.run (datasetOf l (finImp f)) fuel clock st = .ok r →
      ProperDicts r := by
    intro l r hr
    rw [run_eq] at hr
    split at hr
    · cases hr
    · rename_i out ho
      cases hr
      exact proper_resultOf _ _ _ (exec_sized (matsOf_wf l (finImp f)) ho).1.2 _ _
  obtain ⟨p, hp, -⟩ := (C63_scores hl hd hc (fuel := fuel) (clock := clock) (st := st)).1 r hr
  refine sameMostBelieved hsame (key hr) (key hr') ⟨?_, ?_⟩ v
  · intro s x hx
    rw [hp.1] at hx
    split at hx
    · cases hx; exact ⟨_, rfl, trivial⟩
    · cases hx
  · intro v x b hx
    rw [hp.2] at hx
    split at hx
    · cases hx; exact ⟨_, rfl, trivial⟩
    · cases hx

/-- The hypotheses hold for a dataset, a permutation of it and AverageLog. -/
example (clock : Nat → Ex) : ∃ d d', Dataset.mk' demoTriples false (finImp none) = .ok d ∧
    Dataset.mk' [(1, 1, 5), (0, 0, 1), (1, 0, 2)] false (finImp none) = .ok d' ∧
    SameOutcome SameResult ((⟨.averageLog, .conv (some .l2) (fin 0.01) 100, some .voted⟩ : AlgCfg Ex).run d 200 clock)
      ((⟨.averageLog, .conv (some .l2) (fin 0.01) 100, some .voted⟩ : AlgCfg Ex).run d' 200 clock) := by
  have hp : List.Perm demoTriples [(1, 1, 5), (0, 0, 1), (1, 0, 2)] := by decide
  have hn : NoRepeats demoTriples := by decide
  obtain ⟨d', hd'⟩ := (C40_constructor ex_one_ne_zero hp hn false (finImp none)).1 ⟨_, demo_dataset⟩
  have hc : Sound demoTriples ⟨.averageLog, .conv (some .l2) (fin 0.01) 100, some .voted⟩ :=
    ⟨by simp, 1, by decide⟩
  exact ⟨_, d', demo_dataset, hd', C40_run hp hn demo_dataset hd' (by simp) hc _ _ _⟩

end TD
