import Verif.Spec.Experiment
import Verif.Lemmas.Run
import Verif.Lemmas.Text
import Verif.Props.Runs
import Verif.Props.Range
import Verif.Props.Backends
import Verif.Lemmas.Matrix
import Verif.Props.Double
import Mathlib.Data.Set.Countable
import Verif.Props.Stopping
import Verif.Props.Supervised
/-!
# C84: the debug output of `ConvergenceIterator` and the convergence experiment
-/

namespace TD
open Spec
variable {S V X α : Type} [DecidableEq S] [DecidableEq V] [DecidableEq X] [Arith α]

/-! ### The debug option changes nothing -/

theorem compareDebug_snd (p : Printer α) (debug : Bool) (c : IterCfg α) (st : IterState α) (v w : Vec α) :
    (c.compareDebug p debug st v w).2 = c.compare st v w := by
  unfold IterCfg.compareDebug
  cases h : c.compare st v w with
  | error e => rfl
  | ok st' => cases c <;> rfl

theorem loopDebug_snd (p : Printer α) (debug : Bool) (it : IterCfg α)
    (body : Vec α → Vec α → Except PyErr (Option (Step α))) (fuel : Nat) (st : IterState α) (t b : Vec α)
    (log : List (LogEntry α)) :
    (loopDebug p debug it body fuel st t b log).2 = loop it body fuel st t b log := by
  induction fuel generalizing st t b log with
  | zero => rfl
  | succ fuel ih =>
    simp only [loopDebug, loop, bind, Except.bind, pure, Except.pure]
    cases hf : it.finished st with
    | error e => rfl
    | ok o =>
      cases o with
      | true => rfl
      | false =>
        cases hb : body t b with
        | error e => rfl
        | ok q =>
          cases q with
          | none => rfl
          | some s =>
            have := compareDebug_snd p debug it st s.cmp1 s.cmp2
            cases hc : it.compareDebug p debug st s.cmp1 s.cmp2 with
            | mk out r =>
              rw [hc] at this
              cases r with
              | error e => simp only at this; simp [hc, ← this]
              | ok st' => simp only at this; simp [hc, ← this, ih]

theorem execDebug_snd (p : Printer α) (debug : Bool) (c : AlgCfg α) (m : Mats α) (fuel : Nat) (st : IterState α) :
    (c.execDebug p debug m fuel st).2 = c.exec m fuel st := by
  unfold AlgCfg.execDebug
  by_cases h0 : m.numClaims = 0
  · rw [if_pos h0, exec_empty c m fuel st h0]
  · rw [if_neg h0, exec_eq c m fuel st h0]
    cases hi : c.init m with
    | error e => rfl
    | ok q =>
      obtain ⟨t0, b0⟩ := q
      simp only
      rw [loopDebug_snd]
      have : loop c.iterator (c.kind.body m) fuel (c.iterator.reset st) t0 b0
          (if c.kind.logsInit = true then [⟨(c.iterator.reset st).itCount, t0, b0⟩] else []) =
          loop c.iterator (c.kind.body m) fuel {} t0 b0 (initLog c t0 b0) := rfl
      rw [this]
      cases loop c.iterator (c.kind.body m) fuel {} t0 b0 (initLog c t0 b0) with
      | error e => rfl
      | ok e =>
        simp only [Except.bind]
        cases c.finish e.trust e.belief with
        | error e => rfl
        | ok q => rfl

/-- **C84.** Whether `debug` is set does not change what `run` returns or raises. -/
theorem C84_debug_changes_nothing (p : Printer α) (debug : Bool) (c : AlgCfg α) (d : Dataset S V X α)
    (fuel : Nat) (clock : Nat → α) (st : IterState α) :
    (c.runDebug p debug d fuel clock st).2 = c.run d fuel clock st := by
  unfold AlgCfg.runDebug AlgCfg.run
  simp only [execDebug_snd, bind, Except.bind, pure, Except.pure]

/-! ### What is printed -/

/-- **C84.** Nothing is printed unless `debug` is set, and nothing by iterators other than `ConvergenceIterator`. -/
theorem C84_silent (p : Printer α) (debug : Bool) (c : AlgCfg α) (d : Dataset S V X α)
    (h : debug = false ∨ (∃ limit, c.iterator = .fixed limit) ∨ ∃ th, c.iterator = .ord th)
    (fuel : Nat) (clock : Nat → α) (st : IterState α) : (c.runDebug p debug d fuel clock st).1 = [] := by
  have hc : ∀ st v w, (c.iterator.compareDebug p debug st v w).1 = [] := by
    intro st v w
    unfold IterCfg.compareDebug
    cases c.iterator.compare st v w with
    | error e => rfl
    | ok st' =>
      rcases h with rfl | ⟨limit, h⟩ | ⟨th, h⟩
      · cases c.iterator <;> rfl
      · rw [h]
      · rw [h]
  have hl : ∀ body fuel st t b log, (loopDebug p debug c.iterator body fuel st t b log).1 = [] := by
    intro body fuel
    induction fuel with
    | zero => intros; rfl
    | succ fuel ih =>
      intro st t b log
      rw [loopDebug]
      split
      · rfl
      · rfl
      · split
        · rfl
        · rfl
        · next s _ =>
          have h1 := hc st s.cmp1 s.cmp2
          split
          · next out e hq => rw [hq] at h1; exact h1
          · next out st' hq =>
            rw [hq] at h1
            simp only at h1
            simp [h1, ih]
  unfold AlgCfg.runDebug AlgCfg.execDebug
  simp only
  split
  · rfl
  · split
    · rfl
    · exact hl _ _ _ _ _ _

theorem compareDebug_conv {p : Printer α} {debug : Bool} {ms : Option Measure} {th : α} {lim : Int}
    {st : IterState α} {v w : Vec α} :
    (∃ e, getDistance ms v w = .error e ∧
      (IterCfg.conv ms th lim).compareDebug p debug st v w = ([], .error e)) ∨
    ∃ x, getDistance ms v w = .ok x ∧ (IterCfg.conv ms th lim).compareDebug p debug st v w =
      (if debug then p.count (st.itCount + 1) ++ ',' :: p.number x ++ ['\n'] else [],
        .ok { st with itCount := st.itCount + 1, dist := some x }) := by
  simp only [IterCfg.compareDebug, IterCfg.compare, bind, Except.bind, pure, Except.pure]
  cases getDistance ms v w with
  | error e => exact .inl ⟨e, rfl, rfl⟩
  | ok x => exact .inr ⟨x, rfl, by simp [Printer.line]⟩

/-- What the loop prints, and where it ends. -/
theorem loopDebug_out (p : Printer α) (ms : Option Measure) (th : α) (lim : Int)
    (body : Vec α → Vec α → Except PyErr (Option (Step α))) (fuel : Nat) (st : IterState α) (t b : Vec α)
    (log : List (LogEntry α)) :
    ∃ (n : Nat) (st1 : IterState α) (t1 b1 : Vec α) (L : List (LogEntry α)) (ds : List α),
      Steps (.conv ms th lim) body st t b n st1 t1 b1 L ∧
      (loopDebug p true (.conv ms th lim) body fuel st t b log).1 =
        numberedLines p.count p.number (st.itCount + 1) ds ∧
      ds.length = n ∧ (∀ i x, ds[i]? = some x → distNo body ms t b i = some x) ∧
      (∀ e, loop (.conv ms th lim) body fuel st t b log = .ok e → e.st = st1 ∧ e.trust = t1 ∧ e.belief = b1 ∧
        Stops (.conv ms th lim) body st1 t1 b1) ∧
      (∀ e, loop (.conv ms th lim) body fuel st t b log = .error e →
        e = .diverge ∨ Raises (.conv ms th lim) body st1 t1 b1 e) := by
  induction fuel generalizing st t b log with
  | zero => exact ⟨0, st, t, b, [], [], .refl _ _ _, rfl, rfl, by simp, by simp [loop],
      by intro e h; cases h; exact .inl rfl⟩
  | succ fuel ih =>
    cases hf : (IterCfg.conv ms th lim).finished st with
    | error e =>
      exact ⟨0, st, t, b, [], [], .refl _ _ _, by simp [loopDebug, hf, numberedLines], rfl, by simp,
        by simp [loop, hf, bind, Except.bind],
        by intro e' h; simp [loop, hf, bind, Except.bind] at h; subst h; exact .inr (.inl hf)⟩
    | ok o =>
      cases o with
      | true =>
        exact ⟨0, st, t, b, [], [], .refl _ _ _, by simp [loopDebug, hf, numberedLines], rfl, by simp,
          by
            intro e h
            simp [loop, hf, bind, Except.bind, pure, Except.pure] at h
            subst h; exact ⟨rfl, rfl, rfl, .inl hf⟩,
          by intro e' h; simp [loop, hf, bind, Except.bind, pure, Except.pure] at h⟩
      | false =>
        cases hb : body t b with
        | error e =>
          exact ⟨0, st, t, b, [], [], .refl _ _ _, by simp [loopDebug, hf, hb, numberedLines], rfl, by simp,
            by intro e' h; simp [loop, hf, hb, bind, Except.bind] at h,
            by
              intro e' h; simp [loop, hf, hb, bind, Except.bind] at h
              subst h; exact .inr (.inr ⟨hf, .inl hb⟩)⟩
        | ok q =>
          cases q with
          | none =>
            exact ⟨0, st, t, b, [], [], .refl _ _ _, by simp [loopDebug, hf, hb, numberedLines], rfl, by simp,
              by
                intro e h
                simp [loop, hf, hb, bind, Except.bind, pure, Except.pure] at h
                subst h; exact ⟨rfl, rfl, rfl, .inr ⟨hf, hb⟩⟩,
              by intro e' h; simp [loop, hf, hb, bind, Except.bind, pure, Except.pure] at h⟩
          | some s =>
            rcases compareDebug_conv (p := p) (debug := true) (ms := ms) (th := th) (lim := lim) (st := st)
              (v := s.cmp1) (w := s.cmp2) with ⟨e, hd, hc⟩ | ⟨x, hd, hc⟩
            · have hcm : (IterCfg.conv ms th lim).compare st s.cmp1 s.cmp2 = .error e := by
                rw [← compareDebug_snd p true, hc]
              exact ⟨0, st, t, b, [], [], .refl _ _ _, by simp [loopDebug, hf, hb, hc, numberedLines], rfl, by simp,
                by intro e' h; simp [loop, hf, hb, hcm, bind, Except.bind] at h,
                by
                  intro e' h; simp [loop, hf, hb, hcm, bind, Except.bind] at h
                  subst h; exact .inr (.inr ⟨hf, .inr ⟨s, hb, hcm⟩⟩)⟩
            · have hcm : (IterCfg.conv ms th lim).compare st s.cmp1 s.cmp2 =
                  .ok { st with itCount := st.itCount + 1, dist := some x } := by
                rw [← compareDebug_snd p true, hc]
              obtain ⟨n, st1, t1, b1, L, ds, h1, h2, h3, h4, h5, h6⟩ :=
                ih { st with itCount := st.itCount + 1, dist := some x } s.trust s.belief
                  (log ++ [⟨st.itCount + 1, s.trust, s.belief⟩])
              refine ⟨n + 1, st1, t1, b1, _, x :: ds, .cons hf hb hcm h1, ?_, by simp [h3], ?_, ?_, ?_⟩
              · simp only [loopDebug, hf, hb, hc]
                rw [h2]
                simp [numberedLines]
              · intro i y hi
                cases i with
                | zero =>
                  simp only [List.getElem?_cons_zero, Option.some.injEq] at hi
                  subst hi; simp [distNo, passNo, hb, hd]
                | succ i =>
                  rw [distNo_succ hb]
                  exact h4 i y (by simpa using hi)
              · intro e h
                apply h5 e
                simpa [loop, hf, hb, hcm, bind, Except.bind] using h
              · intro e h
                apply h6 e
                simpa [loop, hf, hb, hcm, bind, Except.bind] using h

/-- The distance of a pass is the one of the trust vectors before and after it. -/
theorem steps_distance {k : Kind α} (hk : k ≠ .unboundedSums) {m : Mats α} {it : IterCfg α} {st : IterState α}
    {t b : Vec α} {n : Nat} {st1 t1 b1 L} (h : Steps it (k.body m) st t b n st1 t1 b1 L) (ms : Option Measure) :
    ∀ (i : Nat) (u w : Vec α) (x : α), (t :: L.map LogEntry.trust)[i]? = some u →
      (L.map LogEntry.trust)[i]? = some w → distNo (k.body m) ms t b i = some x → DistanceOf ms u w x := by
  induction h with
  | refl => intro i u w x _ h; simp at h
  | @cons st t b s st' n st'' t'' b'' L hf hb hcmp hs ih =>
    intro i u w x hu hw hx
    cases i with
    | succ i =>
      simp only [List.map_cons, List.getElem?_cons_succ] at hu hw
      rw [distNo_succ hb] at hx
      exact ih i u w x hu hw hx
    | zero =>
      simp only [List.map_cons, List.getElem?_cons_zero, Option.some.injEq] at hu hw
      subst hu; subst hw
      simp only [distNo, passNo, hb] at hx
      cases hd : getDistance ms s.cmp1 s.cmp2 with
      | error e => rw [hd] at hx; simp at hx
      | ok y =>
        rw [hd] at hx
        simp only [Option.some.injEq] at hx
        subst hx
        rcases compares_trust k m t b s hk hb with ⟨e1, e2⟩ | ⟨e1, e2⟩
        · rw [e1, e2] at hd; exact .inl hd
        · rw [e1, e2] at hd; exact .inr hd

/-- The distance after pass `j + 1` is the one between the trust scores that `run_iter` returns. -/
theorem distance_of_iterations {l : List (S × V × X)} {f : Option (V → X → X → Option α)} {c : AlgCfg α}
    (hk : c.kind ≠ .unboundedSums) {ms : Option Measure} {t0 b0 : Vec α} (hi : c.init (matsOf l f) = .ok (t0, b0))
    {j : Nat} {x : α} (hx : distNo (c.kind.body (matsOf l f)) ms t0 b0 j = some x) :
    DistanceOfIterations ms c (datasetOf l f) j x := by
  intro it fuel clock st rs hr k r r' h1 h2 h3
  rw [runIter_eq] at hr
  cases he : ({ c with iterator := it } : AlgCfg α).exec (matsOf l f) fuel st with
  | error e => rw [he] at hr; simp at hr
  | ok out =>
    rw [he] at hr
    simp only [Except.ok.injEq] at hr
    obtain ⟨-, hsz⟩ := exec_sized (matsOf_wf l f) he
    obtain ⟨-, t0', b0', n, st', t, b, L, hi', -, hs, -, -, -, hl⟩ := (exec_ok_iff _ (matsOf l f) fuel st out).1 he
    have hii : ({ c with iterator := it } : AlgCfg α).init (matsOf l f) = c.init (matsOf l f) := rfl
    rw [hii, hi] at hi'
    simp only [Except.ok.injEq, Prod.mk.injEq] at hi'
    obtain ⟨rfl, rfl⟩ := hi'
    have hget : ∀ (i : Nat) (r : Result S V X α), rs[i]? = some r → ∃ e, out.log[i]? = some e ∧
        e.trust = r.trust.map Prod.snd ∧ r.iterations = some e.iterations := by
      intro i r hir
      rw [← hr, List.getElem?_map, enum_getElem?] at hir
      cases hx : out.log[i]? with
      | none => rw [hx] at hir; simp at hir
      | some e =>
        rw [hx] at hir
        simp only [Option.map_some, Option.some.injEq] at hir
        have e1 := (hsz e (List.mem_of_getElem? hx)).1
        refine ⟨e, rfl, ?_, by rw [← hir]; rfl⟩
        rw [← hir]
        exact (List.map_snd_zip (by
            have : e.trust.length = (sources l).length := e1
            omega)).symm
    obtain ⟨e, g1, g2, -⟩ := hget k r h1
    obtain ⟨e', g1', g2', g3'⟩ := hget (k + 1) r' h2
    rw [h3] at g3'
    simp only [Option.some.injEq] at g3'
    have hits := hs.log_iterations
    have key : ∀ i : Nat, L[i]? = some e' → (t0 :: L.map LogEntry.trust)[i]? = some e.trust →
        DistanceOf ms (r.trust.map Prod.snd) (r'.trust.map Prod.snd) x := by
      intro i a1 a2
      have := hits i e' a1
      simp only at this
      obtain rfl : i = j := by
        have h0 : (({} : IterState α)).itCount = 0 := rfl
        omega
      exact steps_distance hk hs ms i _ _ x (by rw [a2, g2]) (by rw [List.getElem?_map, a1, ← g2']; rfl) hx
    cases hlog : c.kind.logsInit with
    | true =>
      have hl' : out.log = ⟨0, t0, b0⟩ :: L := by rw [hl]; simp [initLog, hlog]
      rw [hl'] at g1 g1'
      refine key k (by simpa using g1') ?_
      cases k with
      | zero => simp at g1; subst g1; rfl
      | succ k =>
        simp only [List.getElem?_cons_succ] at g1 ⊢
        rw [List.getElem?_map, g1]; rfl
    | false =>
      have hl' : out.log = L := by rw [hl]; simp [initLog, hlog]
      rw [hl'] at g1 g1'
      refine key (k + 1) g1' ?_
      simp only [List.getElem?_cons_succ]
      rw [List.getElem?_map, g1]; rfl

/-- `execDebug` prints what its loop prints. -/
theorem execDebug_out (p : Printer α) (c : AlgCfg α) (ms : Option Measure) (th : α) (lim : Int)
    (hc : c.iterator = .conv ms th lim) (m : Mats α) (h0 : m.numClaims ≠ 0) (fuel : Nat) (st : IterState α)
    {t0 b0 : Vec α} (hi : c.init m = .ok (t0, b0)) :
    ∃ (n : Nat) (st1 : IterState α) (t1 b1 : Vec α) (L : List (LogEntry α)) (ds : List α),
      Steps (.conv ms th lim) (c.kind.body m) {} t0 b0 n st1 t1 b1 L ∧
      (c.execDebug p true m fuel st).1 = numberedLines p.count p.number 1 ds ∧
      ds.length = n ∧ (∀ i x, ds[i]? = some x → distNo (c.kind.body m) ms t0 b0 i = some x) ∧
      (∀ e, loop (.conv ms th lim) (c.kind.body m) fuel {} t0 b0 (initLog c t0 b0) = .ok e →
        e.st = st1 ∧ e.trust = t1 ∧ e.belief = b1 ∧ Stops (.conv ms th lim) (c.kind.body m) st1 t1 b1) ∧
      (∀ e, loop (.conv ms th lim) (c.kind.body m) fuel {} t0 b0 (initLog c t0 b0) = .error e →
        e = .diverge ∨ Raises (.conv ms th lim) (c.kind.body m) st1 t1 b1 e) := by
  obtain ⟨n, st1, t1, b1, L, ds, h1, h2, h3⟩ :=
    loopDebug_out p ms th lim (c.kind.body m) fuel {} t0 b0 (initLog c t0 b0)
  refine ⟨n, st1, t1, b1, L, ds, h1, ?_, h3⟩
  unfold AlgCfg.execDebug
  rw [if_neg h0, hi]
  simp only [hc]
  exact h2

/-- **C84.** With `debug` set, a run prints one line `k,x` for every iteration, in order: `k` is the number of
the iteration and `x` the distance between the trust scores of the iterations `k - 1` and `k`, as `run_iter`
with any iterator returns them.  There are as many lines as the result says iterations were made, `max(limit, 0)` if
`ConvergenceError` is raised, and only the last line may show a distance below the threshold. -/
theorem C84_debug_output (h10 : Arith.eq (Arith.ofNat 1 : α) (Arith.ofNat 0) = false)
    (l : List (S × V × X)) (am : Bool) (f : Option (V → X → X → Option α))
    (d : Dataset S V X α) (h : Dataset.mk' l am f = .ok d) (p : Printer α) (c : AlgCfg α)
    (hk : c.kind ≠ .unboundedSums) (ms : Option Measure) (th : α) (lim : Int)
    (hc : c.iterator = .conv ms th lim) (fuel : Nat) (clock : Nat → α) (st : IterState α) :
    ∃ ds : List α, (c.runDebug p true d fuel clock st).1 = numberedLines p.count p.number 1 ds ∧
      (∀ (j : Nat) (x : α), ds[j]? = some x → DistanceOfIterations ms c d j x ∧
        (j + 1 < ds.length → Arith.lt x th = false)) ∧
      (∀ r, c.run d fuel clock st = .ok r → r.iterations = some ds.length) ∧
      (c.run d fuel clock st = .error .convergence → ds.length = lim.toNat) := by
  obtain ⟨rfl, -, -⟩ := (mk'_ok_iff l h10 am f d).1 h
  have hout : (c.runDebug p true (datasetOf l f) fuel clock st).1 = (c.execDebug p true (matsOf l f) fuel st).1 := rfl
  rw [hout, run_eq]
  by_cases h0 : (matsOf l f).numClaims = 0
  · refine ⟨[], by simp [AlgCfg.execDebug, h0, numberedLines], by simp, ?_, ?_⟩ <;>
      simp [exec_empty c (matsOf l f) fuel st h0]
  cases hi : c.init (matsOf l f) with
  | error e =>
    refine ⟨[], by simp [AlgCfg.execDebug, h0, hi, numberedLines], by simp, ?_, ?_⟩
    · simp [exec_eq c (matsOf l f) fuel st h0, hi]
    · simp only [exec_eq c (matsOf l f) fuel st h0, hi, Except.error.injEq]
      rintro rfl
      have := init_error hi
      simp at this
  | ok q =>
    obtain ⟨t0, b0⟩ := q
    obtain ⟨n, st1, t1, b1, L, ds, h1, h2, h3, h4, h5, h6⟩ :=
      execDebug_out p c ms th lim hc (matsOf l f) h0 fuel st hi
    have hit : st1.itCount = n := by simpa using h1.itCount
    refine ⟨ds, h2, ?_, ?_, ?_⟩
    · intro j x hj
      refine ⟨distance_of_iterations hk hi (h4 j x hj), fun hlt => ?_⟩
      obtain ⟨y, hy, hy'⟩ := (conv_steps h1).2.2 j (by omega)
      rw [h4 j x hj] at hy
      cases hy
      exact hy'
    · intro r hr
      rw [exec_eq c (matsOf l f) fuel st h0, hi] at hr
      simp only [hc] at hr
      cases hl : loop (.conv ms th lim) (c.kind.body (matsOf l f)) fuel {} t0 b0 (initLog c t0 b0) with
      | error e => rw [hl] at hr; simp at hr
      | ok e =>
        rw [hl] at hr
        obtain ⟨g1, -⟩ := h5 e hl
        simp only at hr
        cases hf : c.finish e.trust e.belief with
        | error e => rw [hf] at hr; simp at hr
        | ok q =>
          rw [hf] at hr
          simp only [Except.ok.injEq] at hr
          rw [← hr, h3, ← hit, ← g1]
          rfl
    · intro hr
      have hfin := finish_other hk
      rw [exec_eq c (matsOf l f) fuel st h0, hi] at hr
      simp only [hc] at hr
      cases hl : loop (.conv ms th lim) (c.kind.body (matsOf l f)) fuel {} t0 b0 (initLog c t0 b0) with
      | ok e => rw [hl] at hr; simp [hfin] at hr
      | error e =>
        rw [hl] at hr
        simp only [Except.error.injEq] at hr
        subst hr
        rcases h6 _ hl with hd | hraise
        · cases hd
        have hle := conv_steps_le h1
        rcases hraise with hfi | ⟨-, hb | ⟨s, hb, hcm⟩⟩
        · have : (st1.itCount : Int) ≥ lim := by
            simp only [IterCfg.finished] at hfi
            split at hfi
            · simp at hfi
            · split at hfi
              · assumption
              · simp at hfi
          rw [h3]; omega
        · exact absurd (body_error hb) (by simp)
        · exact absurd (compare_error hcm) (by simp)

/-! ### The convergence experiment -/

theorem split_line {sep : Char} {a rest : Text} (h : sep ∉ a) :
    split sep (a ++ sep :: rest) = a :: split sep rest := by
  induction a with
  | nil => simp [split]
  | cons c cs ih =>
    have hc : c ≠ sep := fun e => h (by simp [e])
    rw [List.cons_append, split, if_neg hc, ih fun hm => h (by simp [hm])]

theorem split_plain {sep : Char} {a : Text} (h : sep ∉ a) : split sep a = [a] := by
  induction a with
  | nil => rfl
  | cons c cs ih =>
    have hc : c ≠ sep := fun e => h (by simp [e])
    rw [split, if_neg hc, ih fun hm => h (by simp [hm])]

/-- What was printed is read back. -/
theorem readDistances_lines {M : α → Prop} {p : Printer α} (hp : ReadsBack M p) (k : Nat) (ds : List α)
    (hM : ∀ x ∈ ds, M x) : readDistances p (numberedLines p.count p.number k ds) = .ok ds := by
  induction ds generalizing k with
  | nil => rfl
  | cons x xs ih =>
    have hx := hM x (by simp)
    have h1 : '\n' ∉ p.count k ++ ',' :: p.number x := by
      simp only [List.mem_append, List.mem_cons, not_or]
      exact ⟨(hp.count_plain k).2, by decide, (hp.number_plain x hx).2⟩
    have h2 : readDistance p (p.count k ++ ',' :: p.number x) = .ok x := by
      unfold readDistance
      rw [split_line (hp.count_plain k).1, split_plain (hp.number_plain x hx).1]
      exact hp.float x hx
    have h3 : (!(p.count k ++ ',' :: p.number x).isEmpty) = true := by
      cases p.count k <;> rfl
    have := ih (k + 1) fun y hy => hM y (by simp [hy])
    unfold readDistances at this ⊢
    unfold numberedLines
    rw [split_line h1, List.filter_cons, if_pos h3, List.mapM_cons, h2, this]
    rfl

theorem distNo_some {body : Vec α → Vec α → Except PyErr (Option (Step α))} {ms : Option Measure} {t b : Vec α}
    {i : Nat} {x : α} (h : distNo body ms t b i = some x) : ∃ v w, getDistance ms v w = .ok x := by
  unfold distNo at h
  split at h
  · split at h
    · cases h
      rename_i hg
      exact ⟨_, _, hg⟩
    · cases h
  · cases h

/-- If no distance is below the threshold, the convergence iterator with limit `N` makes as many iterations as
the fixed one. -/
theorem steps_to_fixed {k : Kind α} {m : Mats α} {ms : Option Measure} {th : α} {N : Nat} {st : IterState α}
    {t b : Vec α} {n : Nat} {st1 t1 b1 L} (h : Steps (.conv ms th N) (k.body m) st t b n st1 t1 b1 L) :
    ∀ st' : IterState α, st'.itCount = st.itCount →
      ∃ st1', Steps (.fixed N) (k.body m) st' t b n st1' t1 b1 L ∧ st1'.itCount = st1.itCount := by
  induction h with
  | refl => exact fun st' h => ⟨st', .refl _ _ _, h⟩
  | @cons st t b s st2 n st'' t'' b'' L hf hb hc hs ih =>
    intro st' he
    have h2 := compare_itCount hc
    obtain ⟨st1', g1, g2⟩ := ih { st' with itCount := st'.itCount + 1 } (by simp [he, h2])
    refine ⟨st1', ?_, g2⟩
    have hlt : (st.itCount : Int) < N := by
      simp only [IterCfg.finished] at hf
      split at hf
      · simp at hf
      · split at hf
        · simp at hf
        · omega
    have := Steps.cons (it := .fixed N) (st := st') (st' := { st' with itCount := st'.itCount + 1 })
      (by simp only [IterCfg.finished, Except.ok.injEq, decide_eq_false_iff_not]; omega) hb rfl g1
    simpa [he, h2] using this

/-- The series of one algorithm. -/
theorem series_ok (h10 : Arith.eq (Arith.ofNat 1 : α) (Arith.ofNat 0) = false)
    (hnn : ∀ v w x, getDistance (some .l2) v w = .ok x → Arith.lt x (Arith.ofNat 0 : α) = false)
    {M : α → Prop} (hM : ∀ v w x, getDistance (some .l2) v w = .ok x → M x)
    {l : List (S × V × X)} {am : Bool} {f : Option (V → X → X → Option α)} {d : Dataset S V X α}
    (h : Dataset.mk' l am f = .ok d) (hl : l ≠ []) {p : Printer α} (hp : ReadsBack M p) {cls : AlgLabel}
    {k : Kind α} {pr : Prior} (hk : k ≠ .unboundedSums)
    (hcls : convergenceAlgorithm cls = .ok (.iter ⟨k, .conv (some .l2) (Arith.ofNat 0) 100, some pr⟩))
    {fuel : Nat} (hfuel : 100 < fuel) (clock : Nat → α) (st : IterState α) :
    ∃ ds, convergenceSeries p d fuel clock st cls = .ok ds ∧ ds.length ≤ 100 ∧
      (∀ (j : Nat) (x : α), ds[j]? = some x → DistanceOfIterations (some .l2)
        ⟨k, .conv (some .l2) (Arith.ofNat 0) 100, some pr⟩ d j x) ∧
      (∃ r, AlgCfg.run ⟨k, .fixed 100, some pr⟩ d fuel clock st = .ok r ∧ r.iterations = some ds.length) ∧
      (ds.length < 100 → ∃ t b, k.body d.mats t b = .ok none) := by
  obtain ⟨rfl, -, -⟩ := (mk'_ok_iff l h10 am f d).1 h
  have h0 : (matsOf l f).numClaims ≠ 0 := mt (numClaims_zero l f).1 hl
  have hS : (matsOf l f).numSources ≠ 0 := by
    intro e
    have : sources l = [] := List.eq_nil_of_length_eq_zero e
    obtain ⟨⟨s, v, x⟩, l', rfl⟩ := List.exists_cons_of_ne_nil hl
    have hm : s ∈ sources ((s, v, x) :: l') := (mem_sources _).2 ⟨(s, v, x), by simp, rfl⟩
    rw [this] at hm
    simp at hm
  set c : AlgCfg α := ⟨k, .conv (some .l2) (Arith.ofNat 0) 100, some pr⟩ with hc
  obtain ⟨⟨t0, b0⟩, hi⟩ : ∃ q, c.init (matsOf l f) = .ok q := by
    cases k <;> cases pr <;> exact ⟨_, rfl⟩
  obtain ⟨n, st1, t1, b1, L, ds, h1, h2, h3, h4, h5, h6⟩ :=
    execDebug_out p c (some .l2) (Arith.ofNat 0) 100 rfl (matsOf l f) h0 fuel st hi
  have hit : st1.itCount = n := by simpa using h1.itCount
  have hn : n ≤ 100 := by simpa using conv_steps_le h1
  have hout : (c.runDebug p true (datasetOf l f) fuel clock st).1 = numberedLines p.count p.number 1 ds := h2
  have hsnd := C84_debug_changes_nothing p true c (datasetOf l f) fuel clock st
  have hwf := matsOf_wf (α := α) l f
  -- no distance is below the threshold
  have hbelow : st1.below (Arith.ofNat 0 : α) = false := by
    unfold IterState.below
    rcases Nat.eq_zero_or_pos n with rfl | hpos
    · obtain ⟨rfl, -, -⟩ := (conv_steps h1).1 rfl
      rfl
    · obtain ⟨e1, e2, -, -⟩ := (conv_steps h1).2.1 hpos
      cases hd : st1.dist with
      | none => exact absurd hd e2
      | some x =>
        simp only
        rw [hd] at e1
        obtain ⟨v, w, hg⟩ := distNo_some e1.symm
        exact hnn v w x hg
  have hsz := Steps.sized (c := c) hwf h1 (init_sized hwf hi)
  -- how the run ends
  have hend : (n = 100 ∧ ∃ e, c.run (datasetOf l f) fuel clock st = .error e ∧ e = .convergence) ∨
      (n < 100 ∧ k.body (matsOf l f) t1 b1 = .ok none ∧ ∃ r, c.run (datasetOf l f) fuel clock st = .ok r) := by
    rw [run_eq, exec_eq c (matsOf l f) fuel st h0, hi]
    simp only [hc]
    cases hlp : loop (.conv (some .l2) (Arith.ofNat 0) 100) (k.body (matsOf l f)) fuel {} t0 b0 (initLog c t0 b0) with
    | ok e =>
      right
      obtain ⟨g1, g2, g3, g4⟩ := h5 e hlp
      have hfin := finish_other (c := c) hk e.trust e.belief
      rw [hc] at hfin hlp
      rcases g4 with hf | ⟨hf, hb⟩
      · simp only [IterCfg.finished, hbelow] at hf
        split at hf
        · simp_all
        · split at hf <;> simp at hf
      · refine ⟨?_, hb, ?_⟩
        · simp only [IterCfg.finished, hbelow] at hf
          split at hf
          · simp at hf
          · split at hf
            · simp at hf
            · omega
        · simp [hlp, hfin]
    | error e =>
      left
      rw [hc] at hlp
      rcases h6 e hlp with rfl | hraise
      · exfalso
        rcases (loop_error_iff fuel _ _ _ _ _).1 hlp with ⟨-, st', t', b', L', hs'⟩ | ⟨n', st', t', b', L', -, hs', hr'⟩
        · have := conv_steps_le hs'
          simp at this
          omega
        · rcases hr' with hf | ⟨-, hb | ⟨s, hb, hcm⟩⟩
          · have := finished_error hf
            simp at this
          · exact absurd (body_error hb) (by simp)
          · exact absurd (compare_error hcm) (by simp)
      · rcases hraise with hf | ⟨-, hb | ⟨s, hb, hcm⟩⟩
        · have he : e = .convergence := (finished_error hf).1
          refine ⟨?_, e, by simp [hlp], he⟩
          simp only [IterCfg.finished, hbelow] at hf
          split at hf
          · simp at hf
          · split at hf
            · omega
            · simp at hf
        · obtain ⟨s, hs⟩ := body_total (k := k) hwf hS h0 hsz.1
          rw [hs] at hb; cases hb
        · obtain ⟨c1, c2⟩ := body_cmp hwf hsz.1 hb
          obtain ⟨st', hst'⟩ := compare_total (it := .conv (some .l2) (Arith.ofNat 0) 100) (by simp) (by simp)
            (st := st1) c1 c2 hS
          rw [hst'] at hcm; cases hcm
  refine ⟨ds, ?_, by omega, fun j x hj => distance_of_iterations hk hi (h4 j x hj), ?_, ?_⟩
  · unfold convergenceSeries
    rw [hcls]
    simp only
    cases hq : c.runDebug p true (datasetOf l f) fuel clock st with
    | mk out res =>
      rw [hq] at hout hsnd
      simp only at hout hsnd
      subst hout
      have hread := readDistances_lines hp 1 ds (by
        intro x hx
        obtain ⟨j, hj⟩ := List.mem_iff_getElem?.1 hx
        obtain ⟨v, w, hg⟩ := distNo_some (h4 j x hj)
        exact hM v w x hg)
      rcases hend with ⟨-, e, he, rfl⟩ | ⟨-, -, r, hr⟩
      · rw [he] at hsnd; subst hsnd; exact hread
      · rw [hr] at hsnd; subst hsnd; exact hread
  · obtain ⟨st1', g1, g2⟩ := steps_to_fixed (N := 100) h1 {} rfl
    have hstops : Stops (.fixed 100) (k.body (matsOf l f)) st1' t1 b1 := by
      rcases hend with ⟨hn', -⟩ | ⟨hn', hb, -⟩
      · left
        simp only [IterCfg.finished, Except.ok.injEq, decide_eq_true_eq]
        omega
      · right
        refine ⟨?_, hb⟩
        simp only [IterCfg.finished, Except.ok.injEq, decide_eq_false_iff_not]
        omega
    have hfin : ∀ t b, AlgCfg.finish ⟨k, .fixed 100, some pr⟩ t b = .ok (t, b) :=
      fun t b => finish_other (c := ⟨k, .fixed 100, some pr⟩) hk t b
    have hx : AlgCfg.exec ⟨k, .fixed 100, some pr⟩ (matsOf l f) fuel st =
        .ok ⟨t1, b1, n, initLog ⟨k, .fixed 100, some pr⟩ t0 b0 ++ L⟩ :=
      (exec_ok_iff _ _ _ _ _).2 ⟨h0, t0, b0, n, st1', t1, b1, L, hi, by omega, g1, hstops, hfin _ _, rfl, rfl⟩
    rw [run_eq, hx]
    exact ⟨_, rfl, by rw [h3]; rfl⟩
  · intro hlt
    rcases hend with ⟨hn', -⟩ | ⟨-, hb, -⟩
    · omega
    · exact ⟨t1, b1, hb⟩

variable {R : Rounding}

theorem not_lt_zero {x : FNum} (h : NN x) : FNum.lt x (R.rnd ((0 : ℕ) : ℝ)) = false := by
  rw [Nat.cast_zero, R.zero]
  cases h with
  | nan => rfl
  | inf => simp [FNum.lt, FNum.toEReal]
  | fin y hy => simpa [FNum.lt, FNum.toEReal] using hy

theorem nn_sqrt (x : FNum) : NN (FNum.sqrt R x) := by
  cases x with
  | nan => exact .nan
  | pinf => exact .inf
  | ninf => exact .nan
  | fin x =>
    simp only [FNum.sqrt]
    split
    · exact .nan
    · exact nn_rnd (Real.sqrt_nonneg x)

theorem isFloat_rnd (x : ℝ) : IsFloat R (R.rnd x : FNum) := by
  have key : ∀ y : FNum, R.rnd x = y → IsFloat R y := by
    intro y hy
    cases y with
    | nan => exact .inl rfl
    | pinf => exact .inr (.inl rfl)
    | ninf => exact .inr (.inr (.inl rfl))
    | fin y => exact .inr (.inr (.inr ⟨y, rfl, R.idem x y hy⟩))
  exact key _ rfl

/-- A distance is a floating point number. -/
theorem l2_isFloat (v w : Vec (FP R)) (x : FP R) (h : getDistance (some .l2) v w = .ok x) : IsFloat R x := by
  simp only [getDistance, Except.ok.injEq] at h
  have key : ∀ y : FNum, IsFloat R (FNum.sqrt R y) := by
    intro y
    cases y with
    | nan => exact .inl rfl
    | pinf => exact .inr (.inl rfl)
    | ninf => exact .inl rfl
    | fin y =>
      simp only [FNum.sqrt]
      split
      · exact .inl rfl
      · exact isFloat_rnd _
  rw [← h]
  exact key _

/-- A Euclidean distance is never negative. -/
theorem l2_not_negative (v w : Vec (FP R)) (x : FP R) (h : getDistance (some .l2) v w = .ok x) :
    Arith.lt x (Arith.ofNat 0 : FP R) = false := by
  simp only [getDistance, Except.ok.injEq] at h
  rw [← h]
  exact not_lt_zero (nn_sqrt _)

theorem mapM_ok_map {A B : Type} {g : A → Except PyErr B} {L : List A} {h : A → B} (hg : ∀ a ∈ L, g a = .ok (h a)) :
    L.mapM g = .ok (L.map h) := by
  induction L with
  | nil => rfl
  | cons a L ih =>
    rw [List.mapM_cons, hg a (by simp), ih fun b hb => hg b (by simp [hb])]
    rfl

/-- The dataset of a supervised matrix comes from the triples of its matrix. -/
theorem supervised_data {Y : Type} [DecidableEq Y] {parse : Text → Parsed Y} {csv : Text} {sup : SupervisedMatrix Y (FP R)}
    (hsup : SupervisedMatrix.fromCsv parse csv = .ok sup) :
    ∃ am f, Dataset.mk' (getTriples sup.data.sv) am f = .ok sup.data.data := by
  simp only [SupervisedMatrix.fromCsv] at hsup
  split at hsup
  · cases hsup
  · cases hsup
  · split at hsup
    · cases hsup
    · rename_i d hd
      cases hsup
      refine ⟨false, none, ?_⟩
      simp only [MatrixDataset.mk', bind, Except.bind, pure, Except.pure] at hd
      split at hd
      · cases hd
      · rename_i hx
        cases hd
        exact hx

/-- **C84.** The convergence experiment on a non-empty dataset never fails: it draws, over the iterations 1 to 100, one
curve of 100 points for each of the five algorithms with their default parameters.  The `j`-th point is the L2 distance
between the trust scores of iterations `j - 1` and `j`; points are missing exactly after the last iteration that the algorithm
makes with `FixedIterator(100)`, which never happens for Sums and AverageLog. -/
theorem C84_experiment {Y : Type} [DecidableEq Y] (p : Printer (FP R)) (hp : ReadsBack (IsFloat R) p) (parse : Text → Parsed Y) (csv : Text)
    (sup : SupervisedMatrix Y (FP R)) (hsup : SupervisedMatrix.fromCsv parse csv = .ok sup)
    (hne : ∃ row ∈ sup.data.sv, ∃ x, some x ∈ row)
    (fuel : Nat) (hfuel : 100 < fuel) (clock : Nat → Nat → FP R) (sts : Nat → IterState (FP R)) :
    ∃ curves : List (Text × List (Option (FP R))),
      convergenceMain p parse csv fuel clock sts = .ok ((List.range 100).map (· + 1), curves) ∧
      curves.map Prod.fst = ["Sums".toList, "AverageLog".toList, "Investment".toList, "PooledInvestment".toList,
        "TruthFinder".toList] ∧
      ∀ (i : Nat) (cls : AlgLabel) (curve : Text × List (Option (FP R))),
        [AlgLabel.sums, .averageLog, .investment, .pooledInvestment, .truthfinder][i]? = some cls →
        curves[i]? = some curve →
        curve.2.length = 100 ∧
        ∃ (c : AlgCfg (FP R)) (ds : List (FP R)), makeAlg cls [] = .ok (.iter c) ∧
          curve.2 = ds.map some ++ List.replicate (100 - ds.length) none ∧
          (∀ (j : Nat) (x : FP R), ds[j]? = some x → DistanceOfIterations (some .l2) c sup.data.data j x) ∧
          (∃ r, ({ c with iterator := .fixed 100 } : AlgCfg (FP R)).run sup.data.data fuel (clock i) = .ok r ∧
            r.iterations = some ds.length) ∧
          (cls = .sums ∨ cls = .averageLog → ds.length = 100) := by
  obtain ⟨am, f, hd⟩ := supervised_data hsup
  have hl : getTriples sup.data.sv ≠ [] := by
    obtain ⟨row, hrow, x, hx⟩ := hne
    obtain ⟨i, hi⟩ := List.mem_iff_getElem?.1 hrow
    obtain ⟨j, hj⟩ := List.mem_iff_getElem?.1 hx
    exact List.ne_nil_of_mem ((mem_getTriples _ i j x).2 ⟨row, hi, hj⟩)
  have go : ∀ (i : Nat) (cls : AlgLabel) (k : Kind (FP R)) (pr : Prior), k ≠ .unboundedSums →
      convergenceAlgorithm cls = .ok (.iter ⟨k, .conv (some .l2) (Arith.ofNat 0) 100, some pr⟩) → _ :=
    fun i cls k pr hk hcls => series_ok (fp_one_ne_zero R) l2_not_negative l2_isFloat hd hl hp (cls := cls) hk hcls hfuel (clock i) (sts i)
  obtain ⟨d0, a0, b0, e0, ⟨r0, f0, g0⟩, n0⟩ := go 0 .sums .sums .fixed (by simp) rfl
  obtain ⟨d1, a1, b1, e1, ⟨r1, f1, g1⟩, n1⟩ := go 1 .averageLog .averageLog .fixed (by simp) rfl
  obtain ⟨d2, a2, b2, e2, ⟨r2, f2, g2⟩, n2⟩ := go 2 .investment (.investment (Arith.lit 12 10)) .voted (by simp) rfl
  obtain ⟨d3, a3, b3, e3, ⟨r3, f3, g3⟩, n3⟩ :=
    go 3 .pooledInvestment (.pooledInvestment (Arith.lit 14 10)) .uniform (by simp) rfl
  obtain ⟨d4, a4, b4, e4, ⟨r4, f4, g4⟩, n4⟩ :=
    go 4 .truthfinder (.truthFinder (Arith.lit 1 2) (Arith.lit 3 10) (Arith.lit 9 10)) .fixed (by simp) rfl
  have l0 : d0.length = 100 := by
    by_contra hh
    obtain ⟨t, b, hb⟩ := n0 (by omega)
    simpa using body_none hb
  have l1 : d1.length = 100 := by
    by_contra hh
    obtain ⟨t, b, hb⟩ := n1 (by omega)
    simpa using body_none hb
  have hmax : max (max (max (max (max 0 d0.length) d1.length) d2.length) d3.length) d4.length = 100 := by omega
  refine ⟨[("Sums".toList, padSeries 100 d0), ("AverageLog".toList, padSeries 100 d1),
    ("Investment".toList, padSeries 100 d2), ("PooledInvestment".toList, padSeries 100 d3),
    ("TruthFinder".toList, padSeries 100 d4)], ?_, rfl, ?_⟩
  · have hs : (enum convergenceAlgorithms).mapM (fun q =>
        (convergenceSeries p sup.data.data fuel (clock q.1) (sts q.1) q.2.2).bind fun ds =>
          .ok (q.2.1, ds)) = .ok [("Sums".toList, d0), ("AverageLog".toList, d1), ("Investment".toList, d2),
            ("PooledInvestment".toList, d3), ("TruthFinder".toList, d4)] := by
      have he : enum convergenceAlgorithms = [(0, "Sums".toList, .sums), (1, "AverageLog".toList, .averageLog),
        (2, "Investment".toList, .investment), (3, "PooledInvestment".toList, .pooledInvestment),
        (4, "TruthFinder".toList, .truthfinder)] := rfl
      rw [he]
      simp only [List.mapM_cons, List.mapM_nil, a0, a1, a2, a3, a4, Except.bind, bind, pure, Except.pure]
    unfold convergenceMain
    rw [hsup]
    simp only [hs]
    have hm : ([("Sums".toList, d0), ("AverageLog".toList, d1), ("Investment".toList, d2),
      ("PooledInvestment".toList, d3), ("TruthFinder".toList, d4)].map fun q => q.2.length).foldl max 0 = 100 := hmax
    rw [hm]
    rfl
  · have fin : ∀ (i : Nat) (cls : AlgLabel) (k : Kind (FP R)) (it : IterCfg (FP R)) (pr : Prior) (ds : List (FP R))
        (r : Result Nat Nat Y (FP R)), ds.length ≤ 100 →
        (makeAlg cls [] : Except PyErr (AnyAlg (FP R))) = .ok (.iter ⟨k, it, some pr⟩) →
        (∀ (j : Nat) (x : FP R), ds[j]? = some x → DistanceOfIterations (some .l2)
          ⟨k, .conv (some .l2) (Arith.ofNat 0) 100, some pr⟩ sup.data.data j x) →
        AlgCfg.run ⟨k, .fixed 100, some pr⟩ sup.data.data fuel (clock i) (sts i) = .ok r →
        r.iterations = some ds.length → (cls = .sums ∨ cls = .averageLog → ds.length = 100) →
        (padSeries 100 ds).length = 100 ∧
        ∃ (c : AlgCfg (FP R)) (ds' : List (FP R)), makeAlg cls [] = .ok (.iter c) ∧
          padSeries 100 ds = ds'.map some ++ List.replicate (100 - ds'.length) none ∧
          (∀ (j : Nat) (x : FP R), ds'[j]? = some x → DistanceOfIterations (some .l2) c sup.data.data j x) ∧
          (∃ r, ({ c with iterator := .fixed 100 } : AlgCfg (FP R)).run sup.data.data fuel (clock i) = .ok r ∧
            r.iterations = some ds'.length) ∧
          (cls = .sums ∨ cls = .averageLog → ds'.length = 100) := by
      intro i cls k it pr ds r hle hmk hdist hrun hits hcls
      refine ⟨by simp [padSeries]; omega, ⟨k, it, some pr⟩, ds, hmk, rfl, hdist, ⟨r, ?_, hits⟩, hcls⟩
      rw [← hrun]
      rfl
    intro i cls curve hi hcurve
    match i, hi, hcurve with
    | 0, hi, hcurve => cases hi; cases hcurve; exact fin 0 .sums _ _ _ d0 r0 b0 rfl e0 f0 g0 fun _ => l0
    | 1, hi, hcurve => cases hi; cases hcurve; exact fin 1 .averageLog _ _ _ d1 r1 b1 rfl e1 f1 g1 fun _ => l1
    | 2, hi, hcurve => cases hi; cases hcurve; exact fin 2 .investment _ _ _ d2 r2 b2 rfl e2 f2 g2 (by simp)
    | 3, hi, hcurve => cases hi; cases hcurve; exact fin 3 .pooledInvestment _ _ _ d3 r3 b3 rfl e3 f3 g3 (by simp)
    | 4, hi, hcurve => cases hi; cases hcurve; exact fin 4 .truthfinder _ _ _ d4 r4 b4 rfl e4 f4 g4 (by simp)
    | i + 5, hi, hcurve => simp at hi

/-- **C84.** On a dataset without claims the experiment raises `EmptyDatasetError`. -/
theorem C84_experiment_empty {Y : Type} [DecidableEq Y] (p : Printer (FP R)) (parse : Text → Parsed Y) (csv : Text)
    (sup : SupervisedMatrix Y (FP R)) (hsup : SupervisedMatrix.fromCsv parse csv = .ok sup)
    (hne : ∀ row ∈ sup.data.sv, ∀ x ∈ row, x = none)
    (fuel : Nat) (clock : Nat → Nat → FP R) (sts : Nat → IterState (FP R)) :
    convergenceMain p parse csv fuel clock sts = .error .emptyDataset := by
  obtain ⟨am, f, hd⟩ := supervised_data hsup
  have hl : getTriples sup.data.sv = [] := by
    rw [List.eq_nil_iff_forall_not_mem]
    rintro ⟨i, j, x⟩ hm
    obtain ⟨row, h1, h2⟩ := (mem_getTriples _ i j x).1 hm
    have := hne row (List.mem_of_getElem? h1) _ (List.mem_of_getElem? h2)
    cases this
  obtain ⟨hdd, -, -⟩ := (mk'_ok_iff _ (fp_one_ne_zero R) am f _).1 hd
  have h0 : sup.data.data.mats.numClaims = 0 := by
    rw [hdd]; exact (numClaims_zero _ f).2 hl
  have hs : convergenceSeries p sup.data.data fuel (clock 0) (sts 0) .sums = .error .emptyDataset := by
    have ha : (convergenceAlgorithm .sums : Except PyErr (AnyAlg (FP R))) =
      .ok (.iter ⟨.sums, .conv (some .l2) (Arith.ofNat 0) 100, some .fixed⟩) := rfl
    unfold convergenceSeries
    rw [ha]
    simp only [AlgCfg.runDebug, AlgCfg.execDebug, h0, if_true, Except.bind]
  unfold convergenceMain
  rw [hsup]
  have he : enum convergenceAlgorithms = (0, "Sums".toList, .sums) :: (enum convergenceAlgorithms).tail := rfl
  simp only
  rw [he, List.mapM_cons]
  simp only [hs, Except.bind, bind]

/-! ### Examples -/

/-- Doubles can be written and read back. -/
theorem exists_printer : ∃ p : Printer (FP (.binary64 ω)), ReadsBack (IsFloat (.binary64 ω)) p := by
  classical
  have hc : Set.Countable {x : FNum | IsFloat (.binary64 ω) x} := by
    refine Set.Countable.mono (s₂ := {FNum.nan, FNum.pinf, FNum.ninf} ∪
      Set.range fun q : ℤ × ℤ => FNum.fin ((q.1 : ℝ) * 2 ^ q.2)) ?_ ?_
    · rintro x (rfl | rfl | rfl | ⟨y, rfl, hy⟩)
      · simp
      · simp
      · simp
      · obtain ⟨⟨m, e, he, -⟩, -⟩ := (C31_nearest y).1 y hy
        exact .inr ⟨(m, e), by simp only; rw [he]⟩
    · exact (Set.toFinite _).countable.union (Set.countable_range _)
  obtain ⟨g, hg⟩ := Set.countable_iff_exists_injOn.1 hc
  have hmem : ∀ n : Nat, ∀ c ∈ List.replicate n '1', c = '1' := fun n c h => List.eq_of_mem_replicate h
  have hplain : ∀ n : Nat, ',' ∉ List.replicate n '1' ∧ '\n' ∉ List.replicate n '1' :=
    fun n => ⟨fun h => absurd (hmem n _ h) (by decide), fun h => absurd (hmem n _ h) (by decide)⟩
  refine ⟨⟨fun k => List.replicate k '1', fun x => List.replicate (g x) '1', fun t =>
    if h : ∃ x : FP (.binary64 ω), IsFloat (.binary64 ω) x ∧ List.replicate (g x) '1' = t then .ok h.choose
    else .error .valueError⟩, hplain, fun x _ => hplain (g x), ?_⟩
  intro x hx
  have h : ∃ y : FP (.binary64 ω), IsFloat (.binary64 ω) y ∧ List.replicate (g y) '1' = List.replicate (g x) '1' := ⟨x, hx, rfl⟩
  simp only
  rw [dif_pos h]
  congr 1
  refine hg h.choose_spec.1 hx ?_
  have := congrArg List.length h.choose_spec.2
  simpa using this

/-- The hypotheses of `C84_experiment` are met: a dataset of two sources and three variables, in double precision. -/
example : ∃ (p : Printer (FP (.binary64 ω))) (curves : List (Text × List (Option (FP (.binary64 ω))))),
    convergenceMain (Y := Fin 10) p Toy.parseDigit "1,,3\n1,2,\n,2,4\n".toList 101 (fun _ _ => FP.fin 0) (fun _ => {}) =
      .ok ((List.range 100).map (· + 1), curves) ∧ curves.length = 5 := by
  obtain ⟨p, hp⟩ := exists_printer
  obtain ⟨s, h1, -, h2, -⟩ := C13_first_row_is_truth (α := FP (.binary64 ω)) (fp_one_ne_zero _) Toy.parseDigit
    "1,,3\n1,2,\n,2,4\n".toList [some 1, none, some 3] [[some 1, some 2, none], [none, some 2, some 4]]
    (by decide)
  obtain ⟨curves, hc, hn, -⟩ := C84_experiment p hp Toy.parseDigit _ s h1
    (by rw [h2]; exact ⟨_, .head _, 1, .head _⟩) 101 (by norm_num) (fun _ _ => FP.fin 0) (fun _ => {})
  exact ⟨p, curves, hc, by simpa using congrArg List.length hn⟩

/-- Printed text of a run: counts in unary, distances of the toy arithmetic as one letter each. -/
example : ∃ d : Dataset String String Nat Int, Dataset.mk' Toy.triples false none = .ok d ∧
    ((⟨.sums, .conv (some .l1) (-1) 3, some .count⟩ : AlgCfg Int).runDebug
      ⟨fun k => List.replicate k '1', fun x => if x = 0 then ['z'] else ['n'], fun _ => .ok 0⟩ true d 5
      (fun _ => 0)).1 = "1,n\n11,n\n111,z\n".toList := ⟨_, rfl, rfl⟩

end TD
