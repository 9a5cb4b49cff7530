import Verif.Props.Runs
/-!
# C19, C20, C26, C28: runs of the iterative algorithms

In terms of `run`, `run_iter` and their results only; for every number type, algorithm configuration, dataset and
clock.
-/

namespace TD
open Spec
attribute [-instance] instBEqProd

variable {S V X α : Type} [DecidableEq S] [DecidableEq V] [DecidableEq X] [Arith α]

theorem run_error_iff {c : AlgCfg α} {l : List (S × V × X)} {f : Option (V → X → X → Option α)} {fuel : Nat}
    {clock : Nat → α} {st : IterState α} {e : PyErr} :
    c.run (datasetOf l f) fuel clock st = .error e ↔ c.exec (matsOf l f) fuel st = .error e := by
  rw [run_eq]
  cases c.exec (matsOf l f) fuel st <;> simp

/-- **C19.** With a fixed limit `N` the run always stops by itself (`N + 1` tests of the loop condition suffice), it
never reports a convergence failure, and it does not depend on what the iterator was used for before. -/
theorem C19_stops (h10 : Arith.eq (Arith.ofNat 1 : α) (Arith.ofNat 0) = false)
    (l : List (S × V × X)) (am : Bool) (f : Option (V → X → X → Option α))
    (d : Dataset S V X α) (h : Dataset.mk' l am f = .ok d)
    (c : AlgCfg α) (N : Nat) (hc : c.iterator = .fixed N)
    (fuel : Nat) (hfuel : N < fuel) (clock : Nat → α) (st : IterState α) :
    c.run d fuel clock st ≠ .error .diverge ∧ c.run d fuel clock st ≠ .error .convergence ∧
    ∀ fuel' st', N < fuel' → c.run d fuel' clock st' = c.run d fuel clock st := by
  obtain ⟨rfl, -, -⟩ := (mk'_ok_iff l h10 am f d).1 h
  obtain ⟨h1, h2, h3⟩ := fixed_terminates c N hc (datasetOf l f) fuel hfuel clock st
  refine ⟨fun e => h1 (run_error_iff.1 e), fun e => h2 (run_error_iff.1 e), ?_⟩
  intro fuel' st' hf
  rw [run_eq, run_eq]
  have := h3 fuel' st' hf
  have hm : (datasetOf l f).mats = matsOf l f := rfl
  rw [hm] at this
  rw [this]

example : ∃ d : Dataset String String Nat Int, Dataset.mk' Toy.triples false none = .ok d ∧
    ∃ r, (⟨.investment 1, .fixed 3, some .count⟩ : AlgCfg Int).run d 4 (fun _ => 0) = .ok r ∧
      r.iterations = some 0 ∧ CannotContinue Toy.triples r (.investment 1) :=
  ⟨_, rfl, _, rfl, rfl, ("x", 1), by decide, rfl⟩

/-- **C20.** A run with a convergence iterator always stops by itself, after at most `max(limit, 0) + 1` tests of the
loop condition. -/
theorem C20_stops (h10 : Arith.eq (Arith.ofNat 1 : α) (Arith.ofNat 0) = false)
    (l : List (S × V × X)) (am : Bool) (f : Option (V → X → X → Option α))
    (d : Dataset S V X α) (h : Dataset.mk' l am f = .ok d)
    (c : AlgCfg α) (ms : Option Measure) (th : α) (lim : Int) (hc : c.iterator = .conv ms th lim)
    (fuel : Nat) (hfuel : lim.toNat < fuel) (clock : Nat → α) (st : IterState α) :
    c.run d fuel clock st ≠ .error .diverge ∧
    ∀ fuel' st', lim.toNat < fuel' → c.run d fuel' clock st' = c.run d fuel clock st := by
  obtain ⟨rfl, -, -⟩ := (mk'_ok_iff l h10 am f d).1 h
  obtain ⟨h1, h3⟩ := conv_terminates c ms th lim hc (datasetOf l f) fuel hfuel st
  refine ⟨fun e => h1 (run_error_iff.1 e), ?_⟩
  intro fuel' st' hf
  rw [run_eq, run_eq]
  have := h3 fuel' st' hf
  have hm : (datasetOf l f).mats = matsOf l f := rfl
  rw [hm] at this
  rw [this]

/-- The sequence of trust vectors of a run. -/
theorem trustSequence_eq {c : AlgCfg α} {l : List (S × V × X)} {f : Option (V → X → X → Option α)} {fuel : Nat}
    {clock : Nat → α} {st : IterState α} {out : RunOut α} {t0 b0 : Vec α} {L : List (LogEntry α)}
    (he : c.exec (matsOf l f) fuel st = .ok out) (hi : c.init (matsOf l f) = .ok (t0, b0))
    (hl : out.log = initLog c t0 b0 ++ L) :
    trustSequence c.kind (sources l).length ((enum out.log).map fun p =>
      resultOf l p.2.trust p.2.belief (clock (p.1 + 1) -. clock 0) (some p.2.iterations)) =
      t0 :: L.map LogEntry.trust := by
  obtain ⟨-, hsz⟩ := exec_sized (matsOf_wf l f) he
  have e1 : ((enum out.log).map fun p =>
      resultOf l p.2.trust p.2.belief (clock (p.1 + 1) -. clock 0) (some p.2.iterations)).map
        (fun r => r.trust.map Prod.snd) = out.log.map LogEntry.trust := by
    apply List.ext_getElem?
    intro i
    rw [List.getElem?_map, List.getElem?_map, enum_getElem?, List.getElem?_map]
    cases hx : out.log[i]? with
    | none => rfl
    | some e =>
      simp only [Option.map_some, Option.some.injEq]
      have e1 := (hsz e (List.mem_of_getElem? hx)).1
      exact List.map_snd_zip (by
        have : e.trust.length = (sources l).length := e1
        omega)
  unfold trustSequence
  rw [e1, hl, ← logsInit_eq]
  cases hk : c.kind.logsInit with
  | true => simp [initLog, hk]
  | false =>
    have : ∃ eps, c.kind = .crh eps := by
      cases hkk : c.kind with
      | crh eps => exact ⟨eps, rfl⟩
      | _ => rw [hkk] at hk; simp [Kind.logsInit] at hk
    obtain ⟨eps, hkk⟩ := this
    have : t0 = List.replicate (sources l).length (Arith.ofNat 0) := by
      unfold AlgCfg.init at hi
      rw [hkk] at hi
      simp only [Except.ok.injEq, Prod.mk.injEq] at hi
      rw [← hi.1]; rfl
    simp [initLog, hk, this]

/-- The arguments of `compare`, in order. -/
theorem change_eq {k : Kind α} {m : Mats α} {t b : Vec α} {s : Step α} (hk : k ≠ .unboundedSums)
    (h : k.body m t b = .ok (some s)) (ms : Option Measure) :
    getDistance ms s.cmp1 s.cmp2 = change k ms t s.trust := by
  cases k with
  | sums =>
    obtain ⟨a, c, h1, h2, h3⟩ := normalise2_ok (g := fun a b => ⟨t, a, a, b⟩) h
    simp at h3; subst h3; rfl
  | averageLog =>
    obtain ⟨a, c, h1, h2, h3⟩ := normalise2_ok (g := fun a b => ⟨a, t, a, b⟩) h
    simp at h3; subst h3; rfl
  | investment g =>
    simp only [Kind.body, investBody] at h
    cases hu : updateTrust m t b with
    | none => rw [hu] at h; simp [pure, Except.pure] at h
    | some nt =>
      rw [hu] at h
      obtain ⟨a, c, h1, h2, h3⟩ := normalise2_ok (g := fun a b => ⟨a, t, a, b⟩) h
      simp at h3; subst h3; rfl
  | pooledInvestment g =>
    simp only [Kind.body, pooledBody] at h
    cases hu : updateTrust m t b with
    | none => rw [hu] at h; simp [pure, Except.pure] at h
    | some nt =>
      rw [hu] at h
      obtain ⟨a, c, h1, h2, h3⟩ := normalise2_ok (g := fun a b => ⟨a, t, a, b⟩) h
      simp at h3; subst h3; rfl
  | truthFinder rho gamma t0 =>
    simp only [Kind.body, tfBody] at h
    cases hl : logTrust t with
    | none => simp [hl] at h
    | some tau => simp [hl] at h; subst h; rfl
  | crh eps => simp [Kind.body, crhBody] at h; subst h; rfl
  | unboundedSums => exact absurd rfl hk

/-- The distances of successive trust vectors of any sequence of passes. -/
theorem steps_change {k : Kind α} (hk : k ≠ .unboundedSums) {m : Mats α} {it : IterCfg α}
    {st : IterState α} {t b : Vec α} {n : Nat} {st1 t1 b1 L} (h : Steps it (k.body m) st t b n st1 t1 b1 L)
    (ms : Option Measure) (i : Nat) (u w : Vec α) (hu : (t :: L.map LogEntry.trust)[i]? = some u)
    (hw : (t :: L.map LogEntry.trust)[i + 1]? = some w) :
    i < n ∧ ∀ x, change k ms u w = .ok x ↔ distNo (k.body m) ms t b i = some x := by
  induction h generalizing i with
  | refl => simp at hw
  | @cons st t b s st' n st'' t'' b'' L hf hb hcmp hs ih =>
    cases i with
    | succ i =>
      simp only [List.map_cons, List.getElem?_cons_succ] at hu hw
      obtain ⟨h1, h2⟩ := ih i (by simpa using hu) (by simpa using hw)
      refine ⟨by omega, ?_⟩
      rw [distNo_succ hb]; exact h2
    | zero =>
      simp only [List.map_cons, List.getElem?_cons_zero, List.getElem?_cons_succ, Option.some.injEq] at hu hw
      subst hu; subst hw
      refine ⟨by omega, ?_⟩
      intro x
      rw [← change_eq hk hb]
      simp only [distNo, passNo, hb]
      cases getDistance ms s.cmp1 s.cmp2 <;> simp

/-- **C20**, in terms of the partial results of `run_iter` alone.  With a convergence iterator at most
`max(limit, 0)` iterations are made; the distance between any two successive trust vectors exists, and it is not
below the threshold unless they are the last two; the distance of the last two is below the threshold, unless the
algorithm cannot continue from its last result. -/
theorem C20_partial_results (h10 : Arith.eq (Arith.ofNat 1 : α) (Arith.ofNat 0) = false)
    (l : List (S × V × X)) (am : Bool) (f : Option (V → X → X → Option α))
    (d : Dataset S V X α) (h : Dataset.mk' l am f = .ok d) (c : AlgCfg α)
    (ms : Option Measure) (th : α) (lim : Int) (hc : c.iterator = .conv ms th lim)
    (fuel : Nat) (clock : Nat → α) (st : IterState α) (rs : List (Result S V X α))
    (hr : c.runIter d fuel clock st = .ok rs) (T : List (Vec α))
    (hT : T = trustSequence c.kind (sources l).length rs) :
    (T.length : Int) ≤ max lim 0 + 1 ∧
    (∀ (i : Nat) (u w : Vec α), T[i]? = some u → T[i + 1]? = some w →
      ∃ x, change c.kind ms u w = .ok x ∧ (i + 2 < T.length → Arith.lt x th = false)) ∧
    ((∃ (i : Nat) (u w : Vec α) (x : α), i + 2 = T.length ∧ T[i]? = some u ∧ T[i + 1]? = some w ∧
        change c.kind ms u w = .ok x ∧ Arith.lt x th = true) ∨
      ∃ r, rs.getLast? = some r ∧ CannotContinue l r c.kind) := by
  obtain ⟨rfl, -, -⟩ := (mk'_ok_iff l h10 am f d).1 h
  rw [runIter_eq] at hr
  cases he : c.exec (matsOf l f) fuel st with
  | error e => rw [he] at hr; simp at hr
  | ok out =>
    rw [he] at hr
    simp only [Except.ok.injEq] at hr
    obtain ⟨-, hsz⟩ := exec_sized (matsOf_wf l f) he
    obtain ⟨-, t0, b0, n, st', t, b, L, hi, -, hs, hst, hf, hit, hl⟩ :=
      (exec_ok_iff c (matsOf l f) fuel st out).1 he
    have hk : c.kind ≠ .unboundedSums := by
      intro hk
      simp [AlgCfg.finish, hk, hc] at hf
    rw [← hr, trustSequence_eq he hi hl] at hT
    subst hT
    rw [hc] at hs hst
    have hlen := hs.length
    have hcs := steps_change hk hs ms
    obtain ⟨c0, c1, c2⟩ := conv_steps hs
    have hTl : (t0 :: L.map LogEntry.trust).length = n + 1 := by simp [hlen]
    have hd1 : 0 < n → ∃ x, distNo (c.kind.body (matsOf l f)) ms t0 b0 (n - 1) = some x ∧ st'.dist = some x := by
      intro hn
      obtain ⟨a1, a2, -, -⟩ := c1 hn
      cases hd : st'.dist with
      | none => exact absurd hd a2
      | some x => exact ⟨x, by rw [← a1, hd], rfl⟩
    refine ⟨?_, ?_, ?_⟩
    · have := conv_steps_le hs
      rw [hTl]; push_cast; omega
    · intro i u w h1 h2
      obtain ⟨hin, hx⟩ := hcs i u w h1 h2
      rcases Nat.lt_or_ge (i + 1) n with h3 | h3
      · obtain ⟨x, a1, a2⟩ := c2 i h3
        exact ⟨x, (hx x).2 a1, fun _ => a2⟩
      · obtain ⟨x, a1, -⟩ := hd1 (by omega)
        obtain rfl : i = n - 1 := by omega
        exact ⟨x, (hx x).2 a1, fun h => by omega⟩
    · rcases hst with hst | ⟨-, hb⟩
      · left
        simp only [IterCfg.finished] at hst
        split at hst
        · rename_i hbelow
          rcases Nat.eq_zero_or_pos n with rfl | hn
          · obtain ⟨rfl, -, -⟩ := c0 rfl
            simp [IterState.below] at hbelow
          · obtain ⟨x, a1, a2⟩ := hd1 hn
            have l1 : n - 1 < (t0 :: L.map LogEntry.trust).length := by omega
            have l2 : n - 1 + 1 < (t0 :: L.map LogEntry.trust).length := by omega
            have g1 := List.getElem?_eq_getElem l1
            have g2 := List.getElem?_eq_getElem l2
            refine ⟨n - 1, _, _, x, by omega, g1, g2, ((hcs _ _ _ g1 g2).2 x).2 a1, ?_⟩
            unfold IterState.below at hbelow
            rw [a2] at hbelow
            exact hbelow
        · split at hst <;> simp at hst
      · right
        have hlog : c.kind.logsInit = true := by
          rcases body_none hb with ⟨g, hk⟩ | ⟨g, hk⟩ | ⟨x, y, z, hk⟩ <;> rw [hk] <;> rfl
        simp only [initLog, hlog, if_true, List.singleton_append] at hl
        have hlast := hs.last ⟨0, t0, b0⟩ rfl
        have h3 : out.log[n]? = some ⟨st'.itCount, t, b⟩ := by
          rw [hl, ← hlast, List.getLast?_eq_getElem?]
          simp [hlen]
        refine ⟨_, ?_, (body_none_iff l f c.kind (hsz _ (List.mem_of_getElem? h3)).1
          (clock (n + 1) -. clock 0) (some st'.itCount)).1 hb⟩
        rw [← hr, List.getLast?_eq_getElem?, List.getElem?_map, enum_getElem?]
        have e : ((enum out.log).map fun p =>
            resultOf l p.2.trust p.2.belief (clock (p.1 + 1) -. clock 0) (some p.2.iterations)).length - 1 = n := by
          simp [enum, hl, hlen]
        rw [e, h3]
        rfl

example : ∃ d : Dataset String String Nat Int, Dataset.mk' Toy.triples false none = .ok d ∧
    ∃ rs, (⟨.sums, .conv (some .l1) 1 10, some .count⟩ : AlgCfg Int).runIter d 11 (fun _ => 0) = .ok rs ∧
      rs.length = 4 := ⟨_, rfl, _, rfl, rfl⟩

/-- Passes under a convergence iterator are passes under a fixed one. -/
theorem fixed_of_conv {body : Vec α → Vec α → Except PyErr (Option (Step α))} {it : IterCfg α} {N : Nat}
    {st : IterState α} {t b : Vec α} {n : Nat} {st1 t1 b1 L} (h : Steps it body st t b n st1 t1 b1 L)
    (su : IterState α) (hsu : su.itCount = st.itCount) (hN : su.itCount + n ≤ N) :
    ∃ su1, Steps (.fixed (N : Int)) body su t b n su1 t1 b1 L := by
  induction h generalizing su with
  | refl => exact ⟨_, .refl _ _ _⟩
  | @cons st t b s st' n st'' t'' b'' L hf hb hcmp hs ih =>
    have hit := compare_itCount hcmp
    obtain ⟨su1, h1⟩ := ih { su with itCount := su.itCount + 1 } (by simp [hit, hsu]) (by simp; omega)
    refine ⟨su1, ?_⟩
    have hcmp' : (IterCfg.fixed (N : Int)).compare su s.cmp1 s.cmp2 = .ok { su with itCount := su.itCount + 1 } := rfl
    have := Steps.cons (it := .fixed (N : Int)) (st := su) (t := t) (b := b)
      (by simp only [IterCfg.finished, Except.ok.injEq, decide_eq_false_iff_not]; omega) hb hcmp' h1
    have e : ({ su with itCount := su.itCount + 1 } : IterState α).itCount = st'.itCount := by simp [hit, hsu]
    rw [e] at this
    exact this

/-- **C20.** `ConvergenceError` is raised exactly when the same algorithm, made to do `max(limit, 0)` iterations by
a `FixedIterator`, does them all without giving up, and no two successive trust vectors are closer than the
threshold. -/
theorem C20_fails_iff (h10 : Arith.eq (Arith.ofNat 1 : α) (Arith.ofNat 0) = false)
    (l : List (S × V × X)) (am : Bool) (f : Option (V → X → X → Option α))
    (d : Dataset S V X α) (h : Dataset.mk' l am f = .ok d) (c : AlgCfg α) (hk : c.kind ≠ .unboundedSums)
    (ms : Option Measure) (th : α) (lim : Int) (hc : c.iterator = .conv ms th lim)
    (fuel fuel' : Nat) (hfuel : lim.toNat < fuel) (hfuel' : lim.toNat < fuel')
    (clock clock' : Nat → α) (st st' : IterState α) :
    c.run d fuel clock st = .error .convergence ↔
      ∃ rs, ({ c with iterator := .fixed lim.toNat } : AlgCfg α).runIter d fuel' clock' st' = .ok rs ∧
        (trustSequence c.kind (sources l).length rs).length = lim.toNat + 1 ∧
        ∀ (i : Nat) (u w : Vec α), (trustSequence c.kind (sources l).length rs)[i]? = some u →
          (trustSequence c.kind (sources l).length rs)[i + 1]? = some w →
          ∃ x, change c.kind ms u w = .ok x ∧ Arith.lt x th = false := by
  obtain ⟨rfl, -, -⟩ := (mk'_ok_iff l h10 am f d).1 h
  rw [run_error_iff]
  have hiff := conv_error_iff c ms th lim hc (datasetOf l f) fuel hfuel st
  have hm : (datasetOf l f).mats = matsOf l f := rfl
  rw [hm] at hiff
  rw [hiff, runIter_eq]
  set cf : AlgCfg α := { c with iterator := .fixed lim.toNat } with hcf
  have hkf : cf.kind = c.kind := rfl
  have hfin : ∀ t b, cf.finish t b = .ok (t, b) := by
    intro t b
    unfold AlgCfg.finish
    rw [hkf]
    cases hkk : c.kind <;> simp_all
  constructor
  · rintro ⟨h0, t0, b0, hi, hfar⟩
    obtain ⟨st1, t1, b1, L, hs, hbelow⟩ := conv_steps_exist (lim := lim) lim.toNat
      (st := ({} : IterState α)) (by simp [IterState.below])
      (by rcases Nat.eq_zero_or_pos lim.toNat with h | h
          · exact .inr h
          · left; simp only [Nat.zero_add]; omega) hfar
    obtain ⟨su1, hs'⟩ := fixed_of_conv (N := lim.toNat) hs {} rfl (by simp)
    have hcount : su1.itCount = lim.toNat := by rw [hs'.itCount]; simp
    have he : cf.exec (matsOf l f) fuel' st' = .ok ⟨t1, b1, lim.toNat, initLog cf t0 b0 ++ L⟩ := by
      rw [exec_ok_iff]
      refine ⟨h0, t0, b0, lim.toNat, su1, t1, b1, L, hi, hfuel', hs', .inl ?_, hfin _ _, rfl, rfl⟩
      show (IterCfg.fixed (lim.toNat : Int) : IterCfg α).finished su1 = .ok true
      simp only [IterCfg.finished, Except.ok.injEq, decide_eq_true_eq, hcount]
      omega
    rw [he]
    refine ⟨_, rfl, ?_⟩
    have hseq := trustSequence_eq (clock := clock') he hi rfl
    rw [← hkf, hseq]
    refine ⟨by simp [hs.length], ?_⟩
    intro i u w h1 h2
    obtain ⟨hin, hx⟩ := steps_change hk hs ms i u w h1 h2
    obtain ⟨x, a1, a2⟩ := hfar i hin
    exact ⟨x, (hx x).2 a1, a2⟩
  · rintro ⟨rs, hr, hlen, hall⟩
    cases he : cf.exec (matsOf l f) fuel' st' with
    | error e => rw [he] at hr; simp at hr
    | ok out =>
      rw [he] at hr
      simp only [Except.ok.injEq] at hr
      obtain ⟨h0, t0, b0, n, su1, t, b, L, hi, -, hs, hst, hf, hit, hl⟩ :=
        (exec_ok_iff cf (matsOf l f) fuel' st' out).1 he
      rw [← hr, ← hkf, trustSequence_eq he hi hl] at hlen hall
      refine ⟨h0, t0, b0, hi, ?_⟩
      intro i hi'
      have l1 : i < (t0 :: L.map LogEntry.trust).length := by omega
      have l2 : i + 1 < (t0 :: L.map LogEntry.trust).length := by omega
      have g1 := List.getElem?_eq_getElem l1
      have g2 := List.getElem?_eq_getElem l2
      obtain ⟨x, a1, a2⟩ := hall i _ _ g1 g2
      exact ⟨x, ((steps_change hk hs ms i _ _ g1 g2).2 x).1 a1, a2⟩

example : ∃ d : Dataset String String Nat Int, Dataset.mk' Toy.triples false none = .ok d ∧
    (⟨.sums, .conv (some .l1) 0 3, some .count⟩ : AlgCfg Int).run d 4 (fun _ => 0) =
      .error .convergence := ⟨_, rfl, rfl⟩

/-- **C19.** Only the last partial result can be one the algorithm cannot continue from, with any iterator. -/
theorem C19_gives_up_at_once (h10 : Arith.eq (Arith.ofNat 1 : α) (Arith.ofNat 0) = false)
    (l : List (S × V × X)) (am : Bool) (f : Option (V → X → X → Option α))
    (d : Dataset S V X α) (h : Dataset.mk' l am f = .ok d) (c : AlgCfg α)
    (fuel : Nat) (clock : Nat → α) (st : IterState α) (rs : List (Result S V X α))
    (hr : c.runIter d fuel clock st = .ok rs) (i : Nat) (r : Result S V X α) (hi : rs[i]? = some r)
    (hg : CannotContinue l r c.kind) : i + 1 = rs.length := by
  obtain ⟨rfl, -, -⟩ := (mk'_ok_iff l h10 am f d).1 h
  rw [runIter_eq] at hr
  cases he : c.exec (matsOf l f) fuel st with
  | error e => rw [he] at hr; simp at hr
  | ok out =>
    rw [he] at hr
    simp only [Except.ok.injEq] at hr
    obtain ⟨-, hsz⟩ := exec_sized (matsOf_wf l f) he
    obtain ⟨-, t0, b0, n, st', t, b, L, hini, -, hs, hst, hf, hit, hl⟩ :=
      (exec_ok_iff c (matsOf l f) fuel st out).1 he
    have hlog : c.kind.logsInit = true := by
      cases hk : c.kind with
      | crh e => rw [hk] at hg; exact hg.elim
      | _ => rfl
    simp only [initLog, hlog, if_true, List.singleton_append] at hl
    have key : ∀ {st : IterState α} {t b : Vec α} {n : Nat} {st1 t1 b1 L},
        Steps c.iterator (c.kind.body (matsOf l f)) st t b n st1 t1 b1 L → ∀ (k : Nat) (i : Nat) (e : LogEntry α),
        ((⟨k, t, b⟩ : LogEntry α) :: L)[i]? = some e → c.kind.body (matsOf l f) e.trust e.belief = .ok none →
        i = L.length := by
      intro st t b n st1 t1 b1 L h
      induction h with
      | refl =>
        intro k i e hi' _
        cases i with
        | zero => rfl
        | succ i => simp at hi'
      | @cons st t b s st' n st'' t'' b'' L hf hb hcmp hs ih =>
        intro k i e hi' hno
        cases i with
        | zero =>
          simp only [List.getElem?_cons_zero, Option.some.injEq] at hi'
          subst hi'
          simp only at hno
          rw [hb] at hno; simp at hno
        | succ i =>
          rw [List.getElem?_cons_succ] at hi'
          have := ih _ i e hi' hno
          simp [this]
    rw [← hr, List.getElem?_map, enum_getElem?] at hi
    cases hx : out.log[i]? with
    | none => rw [hx] at hi; simp at hi
    | some e =>
      rw [hx] at hi
      simp only [Option.map_some, Option.some.injEq] at hi
      have hno := (body_none_iff l f c.kind (b := e.belief) (hsz _ (List.mem_of_getElem? hx)).1 _ _).2
        (by rw [hi]; exact hg)
      have := key hs 0 i e (by rw [← hl]; exact hx) hno
      rw [← hr]
      simp [enum, hl, this]

/-- **C26**, UnboundedSums: `run` returns the rankings of the scores in the last partial result. -/
theorem C26_unbounded_sums (h10 : Arith.eq (Arith.ofNat 1 : α) (Arith.ofNat 0) = false)
    (l : List (S × V × X)) (am : Bool) (f : Option (V → X → X → Option α))
    (d : Dataset S V X α) (h : Dataset.mk' l am f = .ok d) (c : AlgCfg α) (hk : c.kind = .unboundedSums)
    (fuel : Nat) (clock clock' : Nat → α) (st st' : IterState α)
    (rs : List (Result S V X α)) (r : Result S V X α)
    (h1 : c.runIter d fuel clock st = .ok rs) (h2 : c.run d fuel clock' st' = .ok r) :
    ∃ last rt b rb, rs.getLast? = some last ∧ last.iterations = r.iterations ∧
      last.trust.map Prod.fst = r.trust.map Prod.fst ∧
      rankingVector (last.trust.map Prod.snd) = .ok rt ∧ r.trust.map Prod.snd = rt.map Arith.ofNat ∧
      d.beliefDict b = .ok last.belief ∧ rankingVector b = .ok rb ∧
      d.beliefDict (rb.map Arith.ofNat) = .ok r.belief := by
  obtain ⟨rfl, -, -⟩ := (mk'_ok_iff l h10 am f d).1 h
  rw [runIter_eq] at h1
  rw [run_eq, exec_state_irrelevant c _ fuel st' st] at h2
  cases he : c.exec (matsOf l f) fuel st with
  | error e => rw [he] at h1; simp at h1
  | ok out =>
    rw [he] at h1 h2
    simp only [Except.ok.injEq] at h1 h2
    obtain ⟨hsz, hsz'⟩ := exec_sized (matsOf_wf l f) he
    obtain ⟨last, rt, rb, a1, a2, a3, a4, a5, a6⟩ := usums_exec c (matsOf l f) hk fuel st out he
    have hl := hsz' last (List.mem_of_getLast? a1)
    have e1 : last.trust.length = (sources l).length := hl.1
    have e2 : out.trust.length = (sources l).length := hsz.1
    have hlab := (labels_ok l f hl).2
    have hlab' := (labels_ok l f hsz).2
    refine ⟨resultOf l last.trust last.belief (clock out.log.length -. clock 0) (some last.iterations), rt,
      last.belief, rb, ?_, ?_, ?_, ?_, ?_, hlab, a4, ?_⟩
    · rw [← h1, List.getLast?_map]
      have : (enum out.log).getLast? = some (out.log.length - 1, last) := by
        rw [List.getLast?_eq_getElem?]
        have e : (enum out.log).length = out.log.length := by simp [enum]
        rw [e, enum_getElem?, ← List.getLast?_eq_getElem?, a1]; rfl
      rw [this]
      have hpos : 0 < out.log.length := by
        cases hL : out.log with
        | nil => rw [hL] at a1; simp at a1
        | cons => simp
      simp only [Option.map_some]
      rw [Nat.sub_add_cancel hpos]
    · rw [← h2]; simp [resultOf, a2]
    · rw [← h2]
      simp only [resultOf]
      rw [List.map_fst_zip (by omega), List.map_fst_zip (by omega)]
    · simp only [resultOf]
      rw [List.map_snd_zip (by omega)]; exact a3
    · rw [← h2]
      simp only [resultOf]
      rw [List.map_snd_zip (by omega)]; exact a5
    · rw [← h2, ← a6]; exact hlab'

/-- **C28.** On every non-empty dataset, a `priors` argument which is not a member of the enumeration makes `run` and
`run_iter` of the algorithms that use prior beliefs raise `ValueError`; TruthFinder and CRH never look at it. -/
theorem C28_unknown (h10 : Arith.eq (Arith.ofNat 1 : α) (Arith.ofNat 0) = false)
    (l : List (S × V × X)) (am : Bool) (f : Option (V → X → X → Option α))
    (d : Dataset S V X α) (h : Dataset.mk' l am f = .ok d) (hl : l ≠ []) (it : IterCfg α) (k : Kind α)
    (fuel : Nat) (clock : Nat → α) (st : IterState α) :
    (k = .sums ∨ k = .averageLog ∨ k = .unboundedSums ∨ (∃ g, k = .investment g) ∨ (∃ g, k = .pooledInvestment g) →
      AlgCfg.run ⟨k, it, none⟩ d fuel clock st = .error .valueError ∧
      AlgCfg.runIter ⟨k, it, none⟩ d fuel clock st = .error .valueError) ∧
    ((∃ e, k = .crh e) ∨ (∃ x y z, k = .truthFinder x y z) →
      ∀ p, AlgCfg.run ⟨k, it, p⟩ d fuel clock st = AlgCfg.run ⟨k, it, none⟩ d fuel clock st ∧
      AlgCfg.runIter ⟨k, it, p⟩ d fuel clock st = AlgCfg.runIter ⟨k, it, none⟩ d fuel clock st) := by
  obtain ⟨rfl, -, -⟩ := (mk'_ok_iff l h10 am f d).1 h
  have h0 : (matsOf l f).numClaims ≠ 0 := fun e => hl ((numClaims_zero l f).1 e)
  rw [run_eq, runIter_eq]
  constructor
  · intro hk
    have : AlgCfg.exec ⟨k, it, none⟩ (matsOf l f) fuel st = .error .valueError := by
      rw [exec_eq _ _ _ _ h0]
      rcases hk with rfl | rfl | rfl | ⟨g, rfl⟩ | ⟨g, rfl⟩ <;> rfl
    rw [this]
    exact ⟨rfl, rfl⟩
  · intro hk p
    have : AlgCfg.exec ⟨k, it, p⟩ (matsOf l f) fuel st = AlgCfg.exec ⟨k, it, none⟩ (matsOf l f) fuel st := by
      rcases hk with ⟨e, rfl⟩ | ⟨x, y, z, rfl⟩ <;> rfl
    rw [run_eq, runIter_eq, this]
    exact ⟨rfl, rfl⟩

end TD
