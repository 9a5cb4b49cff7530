import Verif.Model.History
import Verif.Lemmas.Run
/-!
# Effects of runs on the world of objects
-/

namespace TD
open Spec
attribute [-instance] instBEqProd

variable {S V X α : Type} [DecidableEq S] [DecidableEq V] [DecidableEq X] [Arith α]

theorem Act.bind_ok {β γ : Type} {x : Act S V X α β} {f : β → Act S V X α γ}
    {w w' : World S V X α} {b : β} (h : x w = (w', .ok b)) : (x >>= f) w = f b w' := by
  show Act.bind x f w = _
  simp [Act.bind, h]

theorem Act.bind_error {β γ : Type} {x : Act S V X α β} {f : β → Act S V X α γ}
    {w w' : World S V X α} {e : PyErr} (h : x w = (w', .error e)) :
    (x >>= f) w = (w', .error e) := by
  show Act.bind x f w = _
  simp [Act.bind, h]

theorem Act.deref_ok {β : Type} {o : World S V X α → Option β} {w : World S V X α} {b : β}
    (h : o w = some b) : Act.deref o w = (w, .ok b) := by
  simp [Act.deref, h]

theorem Act.alg_ok {a : Nat} {w : World S V X α} {o : AlgObj α} (h : w.algs[a]? = some o) :
    Act.alg a w = (w, .ok o) := Act.deref_ok h

theorem Act.iter_ok {i : Nat} {w : World S V X α} {o : IterObj α} (h : w.iters[i]? = some o) :
    Act.iter i w = (w, .ok o) := Act.deref_ok h

theorem Act.lift_eq {β : Type} (x : Except PyErr β) (w : World S V X α) :
    Act.lift x w = (w, x) := rfl

/-- World after the iterator of `o` got state `st`, `k` clock reads and the entries
`E` were appended to the log of `o`. -/
def upd (o : AlgObj α) (cfg : IterCfg α) (w : World S V X α) (st : IterState α) (k : Nat)
    (E : List (Result S V X α)) : World S V X α :=
  { w with
    iters := w.iters.set o.iterator ⟨cfg, st⟩
    ticks := w.ticks + k
    logs := match o.log with
      | none => w.logs
      | some L => w.logs.modify L (· ++ E) }

theorem modify_append_nil {β : Type} (l : List (List β)) (i : Nat) : l.modify i (· ++ []) = l := by
  simp only [List.append_nil]
  exact List.modify_id i l

theorem upd_self {o : AlgObj α} {it : IterObj α} {w : World S V X α}
    (h : w.iters[o.iterator]? = some it) : upd o it.cfg w it.st 0 [] = w := by
  have h1 : w.iters.set o.iterator ⟨it.cfg, it.st⟩ = w.iters := by
    apply List.ext_getElem?
    intro i
    by_cases hi : o.iterator = i
    · subst hi
      rw [List.getElem?_set_self (List.getElem?_eq_some_iff.1 h).1, h]
    · rw [List.getElem?_set_ne hi]
  unfold upd
  rw [h1]
  cases ho : o.log with
  | none => rfl
  | some L => simp only [modify_append_nil]; rfl

theorem upd_upd {o : AlgObj α} {cfg : IterCfg α} {w : World S V X α} {st st' : IterState α}
    {k k' : Nat} {E E' : List (Result S V X α)} :
    upd o cfg (upd o cfg w st k E) st' k' E' = upd o cfg w st' (k + k') (E ++ E') := by
  unfold upd
  cases o.log with
  | none => simp [List.set_set, Nat.add_assoc]
  | some L =>
    simp only [List.set_set, Nat.add_assoc, List.modify_modify_eq]
    congr 2
    funext x
    simp

/-- Log entries as results with consecutive clock readings from the `n`-th on. -/
def entries (clock : Nat → α) (s : α) (l : List (S × V × X)) : Nat → List (LogEntry α) →
    List (Result S V X α)
  | _, [] => []
  | n, e :: es => resultOf l e.trust e.belief (clock n -. s) (some e.iterations) ::
      entries clock s l (n + 1) es

theorem entries_eq (clock : Nat → α) (s : α) (l : List (S × V × X)) (n : Nat)
    (L : List (LogEntry α)) : entries clock s l n L = (enum L).map fun p =>
      resultOf l p.2.trust p.2.belief (clock (n + p.1) -. s) (some p.2.iterations) := by
  have : ∀ (k : Nat) (L : List (LogEntry α)), entries clock s l (n + k) L = (L.zipIdx k).map fun p =>
      resultOf l p.1.trust p.1.belief (clock (n + p.2) -. s) (some p.1.iterations) := by
    intro k L
    induction L generalizing k with
    | nil => rfl
    | cons e L ih =>
      rw [entries, List.zipIdx_cons, List.map_cons, ← ih (k + 1)]
      rfl
  rw [show n = n + 0 from rfl, this 0]
  simp [enum, Function.comp_def]

theorem logA_eq (clock : Nat → α) {a : Nat} (l : List (S × V × X))
    (f : Option (V → X → X → Option α)) {w : World S V X α} {o : AlgObj α} {it : IterObj α} {s : α}
    (ha : w.algs[a]? = some o) (hi : w.iters[o.iterator]? = some it) (hs : o.start = some s)
    {t b : Vec α} (hz : Sized (matsOf l f) t b) :
    logA clock a (datasetOf l f) t b w =
      (upd o it.cfg w it.st (if o.log.isSome then 1 else 0)
        (entries clock s l w.ticks [⟨it.st.itCount, t, b⟩]), .ok ()) := by
  unfold logA
  rw [Act.bind_ok (Act.alg_ok ha)]
  cases ho : o.log with
  | none =>
    show (w, Except.ok ()) = _
    congr 1
    have := upd_self hi
    unfold upd at this ⊢
    rw [ho] at this ⊢
    exact this.symm
  | some L =>
    obtain ⟨h1, h2⟩ := labels_ok l f hz
    simp only
    rw [h1, h2, Act.bind_ok (Act.lift_eq _ w),
      Act.bind_ok (Act.lift_eq _ w),
      Act.bind_ok (rfl : Act.time clock w = (_, Except.ok _)),
      Act.bind_ok (Act.iter_ok (by exact hi))]
    show (_, Except.ok ()) = _
    congr 1
    have hs' := upd_self hi
    unfold upd at hs' ⊢
    rw [ho] at hs' ⊢
    simp only [Option.isSome_some, ↓reduceIte, hs, Option.getD_some]
    have e1 : w.iters.set o.iterator ⟨it.cfg, it.st⟩ = w.iters := congrArg World.iters hs'
    rw [e1]
    rfl

/-- The loop on the world does what the loop on values does, and touches only its
own iterator and its own log. -/
theorem loopA_eq (clock : Nat → α) {a : Nat} (l : List (S × V × X))
    (f : Option (V → X → X → Option α)) {o : AlgObj α} {cfg : IterCfg α} {s : α}
    (hs : o.start = some s) (fuel : Nat) :
    ∀ (w : World S V X α) (st : IterState α) (t b : Vec α) (log : List (LogEntry α)),
      w.algs[a]? = some o → w.iters[o.iterator]? = some ⟨cfg, st⟩ → Sized (matsOf l f) t b →
      ∃ st' k E, (loopA clock a (datasetOf l f) fuel t b w).1 = upd o cfg w st' k E ∧
        (loopA clock a (datasetOf l f) fuel t b w).2 =
          (loop cfg (o.kind.body (matsOf l f)) fuel st t b log).map (fun e => (e.trust, e.belief)) ∧
        ∀ e, loop cfg (o.kind.body (matsOf l f)) fuel st t b log = .ok e →
          st' = e.st ∧ ∃ new, e.log = log ++ new ∧
            k = (if o.log.isSome then new.length else 0) ∧
            (o.log.isSome → E = entries clock s l w.ticks new) := by
  have hm : (datasetOf l f).mats = matsOf l f := rfl
  induction fuel with
  | zero =>
    intro w st t b log ha hi hz
    exact ⟨st, 0, [], (upd_self hi).symm, rfl, by intro e he; simp [loop] at he⟩
  | succ fuel ih =>
    intro w st t b log ha hi hz
    rw [loopA, Act.bind_ok (Act.alg_ok ha), Act.bind_ok (Act.iter_ok hi), loop]
    cases hf : cfg.finished st with
    | error er =>
      rw [Act.bind_error (Act.lift_eq _ w)]
      exact ⟨st, 0, [], (upd_self hi).symm, rfl, by intro e he; simp [bind, Except.bind] at he⟩
    | ok fin =>
      rw [Act.bind_ok (Act.lift_eq _ w)]
      cases fin with
      | true =>
        refine ⟨st, 0, [], (upd_self hi).symm, rfl, ?_⟩
        intro e he
        simp [bind, Except.bind, pure, Except.pure] at he
        subst he
        exact ⟨rfl, [], by simp, by simp, fun _ => rfl⟩
      | false =>
        simp only [Bool.false_eq_true, ↓reduceIte, hm]
        cases hb : o.kind.body (matsOf l f) t b with
        | error er =>
          rw [Act.bind_error (Act.lift_eq _ w)]
          exact ⟨st, 0, [], (upd_self hi).symm, rfl, by intro e he; simp [bind, Except.bind] at he⟩
        | ok os =>
          rw [Act.bind_ok (Act.lift_eq _ w)]
          cases os with
          | none =>
            refine ⟨st, 0, [], (upd_self hi).symm, rfl, ?_⟩
            intro e he
            simp [bind, Except.bind, pure, Except.pure] at he
            subst he
            exact ⟨rfl, [], by simp, by simp, fun _ => rfl⟩
          | some sp =>
            simp only
            have hz' := body_sized (matsOf_wf l f) hz hb
            cases hc : cfg.compare st sp.cmp1 sp.cmp2 with
            | error er =>
              have ha : cfg.after st sp.cmp1 sp.cmp2 = { st with itCount := st.itCount + 1 } := by
                unfold IterCfg.after; rw [hc]
              rw [ha]
              set w1 : World S V X α := { w with iters := w.iters.set o.iterator ⟨cfg, { st with itCount := st.itCount + 1 }⟩ } with hw1
              rw [Act.bind_ok (rfl : Act.setIter o.iterator ⟨cfg, { st with itCount := st.itCount + 1 }⟩ w = (w1, Except.ok _)),
                Act.bind_error (Act.lift_eq _ w1)]
              refine ⟨{ st with itCount := st.itCount + 1 }, 0, [], ?_, by simp [bind, Except.bind, Except.map, hc],
                by intro e he; simp [bind, Except.bind, hc] at he⟩
              rw [hw1]
              have := upd_self hi
              unfold upd at this ⊢
              have e1 := congrArg World.logs this
              simp only at e1 ⊢
              rw [e1]
              rfl
            | ok st' =>
              have ha' : cfg.after st sp.cmp1 sp.cmp2 = st' := by unfold IterCfg.after; rw [hc]
              rw [ha']
              set w1 : World S V X α := { w with iters := w.iters.set o.iterator ⟨cfg, st'⟩ } with hw1
              have hi1 : w1.iters[o.iterator]? = some ⟨cfg, st'⟩ := by
                rw [hw1]
                exact List.getElem?_set_self (List.getElem?_eq_some_iff.1 hi).1
              rw [Act.bind_ok (rfl : Act.setIter o.iterator ⟨cfg, st'⟩ w = (w1, Except.ok _)),
                Act.bind_ok (Act.lift_eq _ w1), Act.bind_ok (logA_eq clock l f (by exact ha) hi1 hs hz')]
              simp only
              set w2 := upd o cfg w1 st' (if o.log.isSome then 1 else 0)
                (entries clock s l w1.ticks [⟨st'.itCount, sp.trust, sp.belief⟩]) with hw2
              have hw2' : w2 = upd o cfg w st' (if o.log.isSome then 1 else 0)
                  (entries clock s l w.ticks [⟨st'.itCount, sp.trust, sp.belief⟩]) := by
                rw [hw2, hw1]
                unfold upd
                simp only [List.set_set]
              have hi2 : w2.iters[o.iterator]? = some ⟨cfg, st'⟩ := by
                rw [hw2']
                exact List.getElem?_set_self (List.getElem?_eq_some_iff.1 hi).1
              obtain ⟨st2, k, E, e1, e2, e3⟩ := ih w2 st' sp.trust sp.belief
                (log ++ [⟨st'.itCount, sp.trust, sp.belief⟩]) (by rw [hw2']; exact ha) hi2 hz'
              refine ⟨st2, _, _, by rw [e1, hw2', upd_upd], ?_, ?_⟩
              · rw [e2]; simp [bind, Except.bind, hc]
              · intro e he
                simp only [bind, Except.bind, hc, Bool.false_eq_true, ↓reduceIte] at he
                obtain ⟨h1, new, h2, h3, h4⟩ := e3 e he
                refine ⟨h1, ⟨st'.itCount, sp.trust, sp.belief⟩ :: new, ?_, ?_, ?_⟩
                · rw [h2]; simp
                · rw [h3]
                  cases ho : o.log with
                  | none => simp
                  | some L => simp [Nat.add_comm]
                · intro hsome
                  rw [h4 hsome, hw2']
                  obtain ⟨L, ho⟩ := Option.isSome_iff_exists.1 hsome
                  simp [upd, ho, entries]

/-- `_run` on the world. -/
theorem innerRunA_eq (clock : Nat → α) {a : Nat} (l : List (S × V × X))
    (f : Option (V → X → X → Option α)) {o : AlgObj α} {cfg : IterCfg α} {s : α}
    (hs : o.start = some s) (fuel : Nat) (w : World S V X α)
    (ha : w.algs[a]? = some o) (hi : w.iters[o.iterator]? = some ⟨cfg, {}⟩)
    (h0 : (matsOf l f).numClaims ≠ 0) :
    ∃ st' k E, (innerRunA clock a (datasetOf l f) fuel w).1 = upd o cfg w st' k E ∧
      (innerRunA clock a (datasetOf l f) fuel w).2 =
        ((⟨o.kind, cfg, o.priors⟩ : AlgCfg α).exec (matsOf l f) fuel).map
          (fun r => (r.trust, r.belief)) ∧
      ∀ r, (⟨o.kind, cfg, o.priors⟩ : AlgCfg α).exec (matsOf l f) fuel = .ok r →
        st'.itCount = r.iterations ∧
          k = (if o.log.isSome then r.log.length else 0) ∧
          (o.log.isSome → E = entries clock s l w.ticks r.log) := by
  have hm : (datasetOf l f).mats = matsOf l f := rfl
  unfold innerRunA
  rw [Act.bind_ok (Act.alg_ok ha), Act.bind_ok (Act.iter_ok hi), exec_eq _ _ _ _ h0]
  simp only [hm]
  cases hin : (⟨o.kind, cfg, o.priors⟩ : AlgCfg α).init (matsOf l f) with
  | error e =>
    rw [Act.bind_error (Act.lift_eq _ w)]
    exact ⟨{}, 0, [], (upd_self hi).symm, rfl, by simp⟩
  | ok tb =>
    obtain ⟨t0, b0⟩ := tb
    have hz := init_sized (matsOf_wf l f) hin
    rw [Act.bind_ok (Act.lift_eq _ w)]
    simp only
    -- the initial log entry
    obtain ⟨k0, E0, hlog, hk0, hE0⟩ : ∃ k0 E0,
        initLogA clock a (datasetOf l f) o.kind t0 b0 w = (upd o cfg w {} k0 E0, .ok ()) ∧
        k0 = (if o.log.isSome then
          (initLog (⟨o.kind, cfg, o.priors⟩ : AlgCfg α) t0 b0).length else 0) ∧
        E0 = entries clock s l w.ticks (initLog ⟨o.kind, cfg, o.priors⟩ t0 b0) := by
      cases hl : o.kind.logsInit with
      | false =>
        refine ⟨0, [], ?_, by simp [initLog, hl], by simp [initLog, hl, entries]⟩
        rw [upd_self (it := ⟨cfg, {}⟩) hi, initLogA, hl]
        rfl
      | true =>
        refine ⟨if o.log.isSome then 1 else 0, _, ?_, ?_, rfl⟩
        · rw [initLogA, if_pos hl, logA_eq clock l f ha hi hs hz]
          simp only [initLog, hl, ↓reduceIte]
        · simp [initLog, hl]
    rw [Act.bind_ok hlog]
    have hi1 : (upd o cfg w {} k0 E0).iters[o.iterator]? = some ⟨cfg, {}⟩ :=
      List.getElem?_set_self (List.getElem?_eq_some_iff.1 hi).1
    obtain ⟨st', k, E, e1, e2, e3⟩ := loopA_eq clock l f hs fuel (upd o cfg w {} k0 E0) {} t0 b0
      (initLog ⟨o.kind, cfg, o.priors⟩ t0 b0) ha hi1 hz
    have hpair : ∀ (x : World S V X α × Except PyErr (Vec α × Vec α)), x = (x.1, x.2) := fun _ => rfl
    cases hlp : loop cfg (o.kind.body (matsOf l f)) fuel {} t0 b0
        (initLog ⟨o.kind, cfg, o.priors⟩ t0 b0) with
    | error er =>
      rw [hlp] at e2
      rw [Act.bind_error ((hpair _).trans (Prod.ext e1 e2))]
      refine ⟨st', k0 + k, E0 ++ E, upd_upd, ?_, ?_⟩
      · rfl
      · simp
    | ok e =>
      obtain ⟨h1, new, h2, h3, h4⟩ := e3 e hlp
      rw [hlp] at e2
      rw [Act.bind_ok ((hpair _).trans (Prod.ext e1 e2))]
      rw [Act.lift_eq]
      refine ⟨st', k0 + k, E0 ++ E, upd_upd, ?_, ?_⟩
      · simp only
        cases (⟨o.kind, cfg, o.priors⟩ : AlgCfg α).finish e.trust e.belief <;> rfl
      · simp only
        cases hfin : (⟨o.kind, cfg, o.priors⟩ : AlgCfg α).finish e.trust e.belief with
        | error er => simp
        | ok tb =>
          intro r hr
          obtain rfl := Except.ok.inj hr
          refine ⟨by rw [h1], ?_, ?_⟩
          · rw [hk0, h3, h2]
            split <;> simp
          · intro hsome
            rw [h4 hsome, hE0, h2]
            have happ : ∀ (n : Nat) (L1 L2 : List (LogEntry α)),
                entries clock s l n (L1 ++ L2) =
                  entries clock s l n L1 ++ entries clock s l (n + L1.length) L2 := by
              intro n L1 L2
              induction L1 generalizing n with
              | nil => rfl
              | cons x L1 ih =>
                simp only [List.cons_append, entries, ih, List.length_cons]
                rw [show n + 1 + L1.length = n + (L1.length + 1) by omega]
            rw [happ]
            simp only [upd, hk0, hsome, ↓reduceIte]

/-- What `run` leaves behind: the iterator (with its configuration), the algorithm
object's own bookkeeping and the clock. -/
structure Leaves (a : Nat) (o : AlgObj α) (cfg : IterCfg α) (w w' : World S V X α) : Prop where
  iters : ∃ st, w'.iters = w.iters.set o.iterator ⟨cfg, st⟩
  algs : ∃ log start, w'.algs = w.algs.set a { o with log, start }
  gens : w'.gens = w.gens
  logs : ∃ tail, w'.logs = w.logs ++ tail

theorem set_self {β : Type} {l : List β} {i : Nat} {x : β} (h : l[i]? = some x) : l.set i x = l := by
  apply List.ext_getElem?
  intro j
  by_cases hi : i = j
  · subst hi
    rw [List.getElem?_set_self (List.getElem?_eq_some_iff.1 h).1, h]
  · rw [List.getElem?_set_ne hi]

theorem Leaves.refl {a : Nat} {o : AlgObj α} {cfg : IterCfg α} {st : IterState α}
    {w : World S V X α} (ha : w.algs[a]? = some o) (hi : w.iters[o.iterator]? = some ⟨cfg, st⟩) :
    Leaves a o cfg w w :=
  ⟨⟨st, (set_self hi).symm⟩, ⟨o.log, o.start, (set_self (x := o) ha).symm⟩, rfl, ⟨[], by simp⟩⟩

/-- `run` on the world has the outcome of `run` as a function. -/
theorem runA_eq (clock : Nat → α) {a : Nat} (l : List (S × V × X))
    (f : Option (V → X → X → Option α)) {o : AlgObj α} {it : IterObj α}
    (fuel : Nat) (w : World S V X α)
    (ha : w.algs[a]? = some o) (hi : w.iters[o.iterator]? = some it) :
    (runA clock a (datasetOf l f) fuel w).2 =
      (⟨o.kind, it.cfg, o.priors⟩ : AlgCfg α).run (datasetOf l f) fuel (fun k => clock (w.ticks + k)) ∧
    Leaves a o it.cfg w (runA clock a (datasetOf l f) fuel w).1 := by
  have hm : (datasetOf l f).mats = matsOf l f := rfl
  have hpair : ∀ {β : Type} (x : World S V X α × Except PyErr β), x = (x.1, x.2) := fun _ => rfl
  rw [run_eq]
  unfold runA
  by_cases h0 : (matsOf l f).numClaims = 0
  · have hp : prepareA clock a (datasetOf l f) w = (w, .error .emptyDataset) := by
      unfold prepareA
      rw [hm, if_pos h0]
      rfl
    rw [Act.bind_error hp, exec_empty _ _ _ _ h0]
    exact ⟨rfl, Leaves.refl ha hi⟩
  · set w1 : World S V X α := { w with iters := w.iters.set o.iterator ⟨it.cfg, {}⟩,
                                       ticks := w.ticks + 1 } with hw1
    have hp : prepareA clock a (datasetOf l f) w =
        (w1, .ok { o with start := some (clock w.ticks) }) := by
      unfold prepareA
      rw [hm, if_neg h0, Act.bind_ok (Act.alg_ok ha), Act.bind_ok (Act.iter_ok hi)]
      rfl
    rw [Act.bind_ok hp]
    set o2 : AlgObj α := { o with start := some (clock w.ticks), log := none } with ho2
    set w2 : World S V X α := { w1 with algs := w1.algs.set a o2 } with hw2
    rw [Act.bind_ok (rfl : Act.setAlg a _ w1 = (w2, Except.ok _))]
    have ha2 : w2.algs[a]? = some o2 :=
      List.getElem?_set_self (List.getElem?_eq_some_iff.1 ha).1
    have hi2 : w2.iters[o2.iterator]? = some ⟨it.cfg, {}⟩ :=
      List.getElem?_set_self (List.getElem?_eq_some_iff.1 hi).1
    obtain ⟨st', k, E, e1, e2, e3⟩ := innerRunA_eq clock l f (o := o2) (s := clock w.ticks) rfl fuel w2
      ha2 hi2 h0
    have hleave : ∀ t', Leaves a o it.cfg w { upd o2 it.cfg w2 st' k E with ticks := t' } := by
      intro t'
      refine ⟨⟨st', ?_⟩, ⟨none, some (clock w.ticks), rfl⟩, rfl, ⟨[], ?_⟩⟩
      · simp [upd, hw2, hw1, ho2, List.set_set]
      · simp [upd, ho2, hw2, hw1]
    cases hex : (⟨o.kind, it.cfg, o.priors⟩ : AlgCfg α).exec (matsOf l f) fuel with
    | error er =>
      have e2' : (innerRunA clock a (datasetOf l f) fuel w2).2 = .error er := by
        rw [e2]
        show (AlgCfg.exec ⟨o.kind, it.cfg, o.priors⟩ (matsOf l f) fuel).map _ = _
        rw [hex]; rfl
      rw [Act.bind_error ((hpair _).trans (Prod.ext e1 e2'))]
      exact ⟨rfl, hleave _⟩
    | ok r =>
      have e2' : (innerRunA clock a (datasetOf l f) fuel w2).2 = .ok (r.trust, r.belief) := by
        rw [e2]
        show (AlgCfg.exec ⟨o.kind, it.cfg, o.priors⟩ (matsOf l f) fuel).map _ = _
        rw [hex]; rfl
      obtain ⟨c1, c2, -⟩ := e3 r hex
      rw [Act.bind_ok ((hpair _).trans (Prod.ext e1 e2'))]
      have hk : k = 0 := by rw [c2]; simp [ho2]
      subst hk
      obtain ⟨d1, d2⟩ := labels_ok l f (exec_sized (matsOf_wf l f) hex).1
      rw [Act.bind_ok (rfl : Act.time clock _ = (_, Except.ok _))]
      simp only [d1, d2]
      rw [Act.bind_ok (Act.lift_eq _ _), Act.bind_ok (Act.lift_eq _ _)]
      have hi3 : (upd o2 it.cfg w2 st' 0 E).iters[o2.iterator]? = some ⟨it.cfg, st'⟩ :=
        List.getElem?_set_self (List.getElem?_eq_some_iff.1 hi2).1
      rw [Act.bind_ok (Act.alg_ok (by exact ha2)), Act.bind_ok (Act.iter_ok (by exact hi3))]
      refine ⟨?_, hleave _⟩
      show Except.ok _ = Except.ok _
      simp only [resultOf, c1, ho2, Option.getD_some, hw2, hw1, upd]
      rfl

/-- The first `next` of a generator runs the algorithm and stores its log in a new
list, which the generator then yields from. -/
theorem nextA_fresh (clock : Nat → α) {a g : Nat} (l : List (S × V × X))
    (f : Option (V → X → X → Option α)) {o : AlgObj α} {it : IterObj α}
    (fuel : Nat) (w : World S V X α)
    (ha : w.algs[a]? = some o) (hi : w.iters[o.iterator]? = some it)
    (hg : w.gens[g]? = some (.fresh a (datasetOf l f))) :
    ∃ w', Leaves a o it.cfg { w with gens := w.gens.set g .done } w' ∧
      match (⟨o.kind, it.cfg, o.priors⟩ : AlgCfg α).runIter (datasetOf l f) fuel
        (fun k => clock (w.ticks + k)) with
      | .error e => nextA clock g fuel w = (w', .error e)
      | .ok rs => w'.logs = w.logs ++ [rs] ∧ nextA clock g fuel w = resumeA g w.logs.length 0 w' := by
  have hm : (datasetOf l f).mats = matsOf l f := rfl
  have hpair : ∀ {β : Type} (x : World S V X α × Except PyErr β), x = (x.1, x.2) := fun _ => rfl
  set w0 : World S V X α := { w with gens := w.gens.set g .done } with hw0
  have ha0 : w0.algs[a]? = some o := ha
  have hi0 : w0.iters[o.iterator]? = some it := hi
  rw [runIter_eq]
  unfold nextA
  rw [Act.bind_ok (Act.deref_ok (o := fun w => w.gens[g]?) hg)]
  simp only
  rw [Act.bind_ok (rfl : Act.setGen g .done w = (w0, Except.ok _))]
  by_cases h0 : (matsOf l f).numClaims = 0
  · have hp : prepareA clock a (datasetOf l f) w0 = (w0, .error .emptyDataset) := by
      unfold prepareA
      rw [hm, if_pos h0]
      rfl
    rw [Act.bind_error hp, exec_empty _ _ _ _ h0]
    exact ⟨w0, Leaves.refl ha0 hi0, rfl⟩
  · set w1 : World S V X α := { w0 with iters := w0.iters.set o.iterator ⟨it.cfg, {}⟩,
                                        ticks := w0.ticks + 1 } with hw1
    have hp : prepareA clock a (datasetOf l f) w0 =
        (w1, .ok { o with start := some (clock w.ticks) }) := by
      unfold prepareA
      rw [hm, if_neg h0, Act.bind_ok (Act.alg_ok ha0), Act.bind_ok (Act.iter_ok hi0)]
      rfl
    rw [Act.bind_ok hp]
    set w1' : World S V X α := { w1 with logs := w1.logs ++ [[]] } with hw1'
    rw [Act.bind_ok (rfl : Act.newLog w1 = (w1', Except.ok _))]
    set o2 : AlgObj α := { o with start := some (clock w.ticks), log := some w1.logs.length } with ho2
    set w2 : World S V X α := { w1' with algs := w1'.algs.set a o2 } with hw2
    rw [Act.bind_ok (rfl : Act.setAlg a _ w1' = (w2, Except.ok _))]
    have ha2 : w2.algs[a]? = some o2 :=
      List.getElem?_set_self (List.getElem?_eq_some_iff.1 ha).1
    have hi2 : w2.iters[o2.iterator]? = some ⟨it.cfg, {}⟩ :=
      List.getElem?_set_self (List.getElem?_eq_some_iff.1 hi).1
    obtain ⟨st', k, E, e1, e2, e3⟩ := innerRunA_eq clock l f (o := o2) (s := clock w.ticks) rfl fuel w2
      ha2 hi2 h0
    have hlogs : (upd o2 it.cfg w2 st' k E).logs = w.logs ++ [E] := by
      simp only [upd, ho2, hw2, hw1', hw1, hw0]
      rw [List.modify_eq_set_getElem?]
      simp
    have hleave : Leaves a o it.cfg w0 (upd o2 it.cfg w2 st' k E) := by
      refine ⟨⟨st', ?_⟩, ⟨_, some (clock w.ticks), rfl⟩, rfl, ⟨[E], hlogs⟩⟩
      simp [upd, hw2, hw1', hw1, hw0, ho2, List.set_set]
    refine ⟨_, hleave, ?_⟩
    cases hex : (⟨o.kind, it.cfg, o.priors⟩ : AlgCfg α).exec (matsOf l f) fuel with
    | error er =>
      have e2' : (innerRunA clock a (datasetOf l f) fuel w2).2 = .error er := by
        rw [e2]
        show (AlgCfg.exec ⟨o.kind, it.cfg, o.priors⟩ (matsOf l f) fuel).map _ = _
        rw [hex]; rfl
      exact Act.bind_error ((hpair _).trans (Prod.ext e1 e2'))
    | ok r =>
      have e2' : (innerRunA clock a (datasetOf l f) fuel w2).2 = .ok (r.trust, r.belief) := by
        rw [e2]
        show (AlgCfg.exec ⟨o.kind, it.cfg, o.priors⟩ (matsOf l f) fuel).map _ = _
        rw [hex]; rfl
      obtain ⟨-, -, c3⟩ := e3 r hex
      have hE := c3 (by simp [ho2])
      refine ⟨?_, ?_⟩
      · rw [hlogs, hE, entries_eq]
        congr 2
        refine List.map_congr_left fun p _ => ?_
        have h1 : w2.ticks + p.1 = w.ticks + (p.1 + 1) := by
          simp only [hw2, hw1', hw1, hw0]; omega
        rw [h1]
        rfl
      · rw [Act.bind_ok ((hpair _).trans (Prod.ext e1 e2')),
          Act.bind_ok (Act.alg_ok (by exact ha2))]
        rfl

end TD
