import Verif.Lemmas.Run
import Verif.Lemmas.Toy
import Verif.Lemmas.GaveUp
/-!
# C09, C19, C20, C23, C26, C27: iterators and runs

All theorems hold for every number type (in particular for floats with NaN), for
every algorithm configuration `c`, every dataset built from triples `l`, and
every clock.  `fuel` bounds the number of tests of the `while` condition; an
outcome other than `diverge` is the outcome of the real loop.
-/

namespace TD
open Spec
attribute [-instance] instBEqProd

variable {S V X α : Type} [DecidableEq S] [DecidableEq V] [DecidableEq X] [Arith α]

/-- **C09.** `run` and `run_iter` of every iterative algorithm raise
`EmptyDatasetError` iff the dataset has no triples. -/
theorem C09_empty_dataset (h10 : Arith.eq (Arith.ofNat 1 : α) (Arith.ofNat 0) = false)
    (l : List (S × V × X)) (am : Bool) (f : Option (V → X → X → Option α))
    (d : Dataset S V X α) (h : Dataset.mk' l am f = .ok d)
    (c : AlgCfg α) (fuel : Nat) (clock : Nat → α) (st : IterState α) :
    (c.run d fuel clock st = .error .emptyDataset ↔ l = []) ∧
    (c.runIter d fuel clock st = .error .emptyDataset ↔ l = []) := by
  obtain ⟨rfl, -, -⟩ := (mk'_ok_iff l h10 am f d).1 h
  rw [run_eq, runIter_eq]
  have key : c.exec (matsOf l f) fuel st = .error .emptyDataset ↔ l = [] := by
    rw [← numClaims_zero l f]
    constructor
    · intro he
      by_contra h0
      rcases exec_error c _ fuel st _ h0 he with h | ⟨h, -⟩ <;> simp at h
    · exact exec_empty c _ fuel st
  rw [← key]
  constructor <;> cases c.exec (matsOf l f) fuel st <;> simp

/-- **C09** for `MajorityVoting.run`, which otherwise always succeeds. -/
theorem C09_empty_dataset_voting (h10 : Arith.eq (Arith.ofNat 1 : α) (Arith.ofNat 0) = false)
    (l : List (S × V × X)) (am : Bool) (f : Option (V → X → X → Option α))
    (d : Dataset S V X α) (h : Dataset.mk' l am f = .ok d) (clock : Nat → α) :
    (votingRun d clock = .error .emptyDataset ↔ l = []) ∧
    (l ≠ [] → ∃ r, votingRun d clock = .ok r) := by
  obtain ⟨rfl, -, -⟩ := (mk'_ok_iff l h10 am f d).1 h
  have hm : (datasetOf l f).mats = matsOf l f := rfl
  unfold votingRun
  rw [hm]
  by_cases hl : l = []
  · have h0 := (numClaims_zero l f).2 hl
    subst hl; simp [h0, throw, throwThe, MonadExceptOf.throw, bind, Except.bind]
  · have h0 := mt (numClaims_zero l f).1 hl
    have hlen : (sourceCounts (matsOf l f)).length = (claims l).length := by
      simp [sourceCounts, length_mulVec, length_T]; rfl
    have hmx : ∃ mx, npMax (sourceCounts (matsOf l f)) = .ok mx := by
      cases hs : sourceCounts (matsOf l f) with
      | nil =>
        exfalso; rw [hs] at hlen
        exact h0 (by simpa [matsOf] using hlen.symm)
      | cons x xs => exact ⟨_, rfl⟩
    obtain ⟨mx, hmx⟩ := hmx
    have hsz : Sized (matsOf l f) (ones (matsOf l f).numSources)
        ((sourceCounts (matsOf l f)).map (· /. mx)) := ⟨by simp [ones], by simp [hlen]; rfl⟩
    obtain ⟨h1, h2⟩ := labels_ok l f hsz
    simp [h0, hl, hmx, h1, h2, bind, Except.bind, pure, Except.pure]

example : ∃ d : Dataset String String Nat Int, Dataset.mk' [] false none = .ok d ∧
    (⟨.sums, .fixed 3, some .fixed⟩ : AlgCfg Int).run d 5 (fun _ => 0) = .error .emptyDataset :=
  ⟨_, rfl, rfl⟩

/-! ### FixedIterator -/

/-- **C19.** The constructor rejects exactly negative limits. -/
theorem C19_constructor (n : Int) :
    (mkFixed (some n) : Except PyErr (IterCfg α)) = .error .valueError ↔ n < 0 := by
  unfold mkFixed
  split <;> simp_all

/-- What the constructor builds otherwise (default limit 20). -/
theorem C19_constructor_ok (n : Nat) :
    (mkFixed (some (n : Int)) : Except PyErr (IterCfg α)) = .ok (.fixed n) ∧
    (mkFixed none : Except PyErr (IterCfg α)) = .ok (.fixed 20) := by
  constructor
  · simp [mkFixed]
  · rfl

theorem fixed_steps_le {body : Vec α → Vec α → Except PyErr (Option (Step α))} {N : Nat}
    {t b : Vec α} {n : Nat} {st1 t1 b1 L1}
    (h : Steps (.fixed (N : Int)) body {} t b n st1 t1 b1 L1) : n ≤ N := by
  have aux : ∀ {st : IterState α} {t b n st1 t1 b1 L1},
      Steps (.fixed (N : Int)) body st t b n st1 t1 b1 L1 → st.itCount ≤ N → st.itCount + n ≤ N := by
    intro st t b n st1 t1 b1 L1 h
    induction h with
    | refl => intro h; simpa using h
    | cons hf _ hc _ ih =>
      intro _
      simp only [IterCfg.finished, Except.ok.injEq, decide_eq_false_iff_not] at hf
      have := compare_itCount hc
      have := ih (by omega)
      omega
  have := aux h (by simp)
  simpa using this

/-- With a fixed limit `N` the run always stops by itself (`N + 1` tests
of the loop condition suffice), and it never reports a convergence failure. -/
theorem fixed_terminates (c : AlgCfg α) (N : Nat) (hc : c.iterator = .fixed N) (d : Dataset S V X α)
    (fuel : Nat) (hfuel : N < fuel) (clock : Nat → α) (st : IterState α) :
    c.exec d.mats fuel st ≠ .error .diverge ∧ c.exec d.mats fuel st ≠ .error .convergence ∧
    ∀ fuel' st', N < fuel' → c.exec d.mats fuel' st' = c.exec d.mats fuel st := by
  by_cases h0 : d.mats.numClaims = 0
  · refine ⟨?_, ?_, ?_⟩
    · simp [exec_empty _ _ _ _ h0]
    · simp [exec_empty _ _ _ _ h0]
    · intro _ _ _; rw [exec_empty _ _ _ _ h0, exec_empty _ _ _ _ h0]
  · refine ⟨?_, ?_, ?_⟩
    · intro he
      rcases exec_error c _ fuel st _ h0 he with h | ⟨-, t0, b0, st', t, b, L, -, hs⟩
      · simp at h
      · rw [hc] at hs
        have := fixed_steps_le hs
        omega
    · intro he
      rw [exec_eq _ _ _ _ h0] at he
      cases hi : c.init d.mats with
      | error e' => rw [hi] at he; simp at he; subst he; simpa using init_error hi
      | ok p =>
        obtain ⟨t0, b0⟩ := p
        rw [hi] at he
        simp only at he
        cases hl : loop c.iterator (c.kind.body d.mats) fuel {} t0 b0 (initLog c t0 b0) with
        | error e' =>
          rw [hl] at he
          simp only [Except.error.injEq] at he
          subst he
          rcases (loop_error_iff _ _ _ _ _ _).1 hl with ⟨h, -⟩ | ⟨n, _, _, _, _, -, -, hr⟩
          · simp at h
          · rcases hr with h | ⟨-, h | ⟨s, -, h⟩⟩
            · obtain ⟨-, _, _, _, h2⟩ := finished_error h
              rw [hc] at h2; simp at h2
            · have := body_error h; simp at this
            · rcases compare_error h with h | h <;> simp at h
        | ok e' =>
          rw [hl] at he
          simp only at he
          cases hf : c.finish e'.trust e'.belief with
          | error e'' =>
            rw [hf] at he; simp at he; subst he
            rcases finish_error hf with h | h <;> simp at h
          | ok q => rw [hf] at he; simp at he
    · intro fuel' st' hf'
      rw [exec_eq _ _ _ _ h0, exec_eq _ _ _ _ h0]
      cases hi : c.init d.mats with
      | error e' => rfl
      | ok p =>
        obtain ⟨t0, b0⟩ := p
        simp only
        have : loop c.iterator (c.kind.body d.mats) fuel' {} t0 b0 (initLog c t0 b0) =
            loop c.iterator (c.kind.body d.mats) fuel {} t0 b0 (initLog c t0 b0) := by
          rcases Nat.le_total fuel fuel' with h | h
          · apply loop_fuel_mono h
            intro _ _ _ _ hs
            rw [hc] at hs
            have := fixed_steps_le hs; omega
          · symm
            apply loop_fuel_mono h
            intro _ _ _ _ hs
            rw [hc] at hs
            have := fixed_steps_le hs; omega
        rw [this]

/-- **C19.** The result reports exactly `N` iterations, or fewer if the algorithm cannot continue from the
state it reports (which only happens with Investment, PooledInvestment and TruthFinder). -/
theorem C19_fixed_iterations (h10 : Arith.eq (Arith.ofNat 1 : α) (Arith.ofNat 0) = false)
    (l : List (S × V × X)) (am : Bool) (f : Option (V → X → X → Option α))
    (d : Dataset S V X α) (h : Dataset.mk' l am f = .ok d)
    (c : AlgCfg α) (N : Nat) (hc : c.iterator = .fixed N)
    (fuel : Nat) (clock : Nat → α) (st : IterState α) (r : Result S V X α)
    (hr : c.run d fuel clock st = .ok r) :
    r.iterations = some N ∨
    ∃ n, r.iterations = some n ∧ n < N ∧ CannotContinue l r c.kind := by
  obtain ⟨rfl, -, -⟩ := (mk'_ok_iff l h10 am f d).1 h
  rw [run_eq] at hr
  cases he : c.exec (matsOf l f) fuel st with
  | error e => rw [he] at hr; simp at hr
  | ok out =>
    have hsz := (exec_sized (matsOf_wf l f) he).1
    rw [he] at hr
    simp only [Except.ok.injEq] at hr
    subst hr
    obtain ⟨-, t0, b0, n, st', t, b, L, hi, -, hs, hst, hf, hit, -⟩ :=
      (exec_ok_iff c (matsOf l f) fuel st out).1 he
    have hn : n ≤ N := by rw [hc] at hs; exact fixed_steps_le hs
    have hcount : st'.itCount = n := by rw [hs.itCount]; simp
    rcases hst with hst | ⟨hst, hb⟩
    · left
      rw [hc] at hst
      simp only [IterCfg.finished, Except.ok.injEq, decide_eq_true_eq, hcount] at hst
      simp only [resultOf, hit, Option.some.injEq]
      omega
    · right
      have hk := body_none hb
      have hfin : c.finish t b = .ok (t, b) := by
        unfold AlgCfg.finish
        rcases hk with ⟨g, hk⟩ | ⟨g, hk⟩ | ⟨x, y, z, hk⟩ <;> simp [hk]
      rw [hfin] at hf
      simp only [Except.ok.injEq, Prod.mk.injEq] at hf
      obtain ⟨ht, hb'⟩ := hf
      rw [hc] at hst
      simp only [IterCfg.finished, Except.ok.injEq, decide_eq_false_iff_not, hcount] at hst
      refine ⟨n, by simp [resultOf, hit], by omega, ?_⟩
      rw [← ht, ← hb']
      exact (body_none_iff l f c.kind (by rw [ht]; exact hsz.1) _ _).1 hb

example : ∃ d : Dataset String String Nat Int, Dataset.mk' Toy.triples false none = .ok d ∧
    ∃ r, (⟨.sums, .fixed 3, some .count⟩ : AlgCfg Int).run d 4 (fun _ => 0) = .ok r ∧
      r.iterations = some 3 := ⟨_, rfl, _, rfl, rfl⟩

/-! ### ConvergenceIterator -/

/-- The `(i+1)`-th pass through the loop body, as long as no pass before raises
or finishes early. -/
def passNo (body : Vec α → Vec α → Except PyErr (Option (Step α))) :
    Vec α → Vec α → Nat → Option (Step α)
  | t, b, 0 => match body t b with | .ok (some s) => some s | _ => none
  | t, b, i + 1 => match body t b with | .ok (some s) => passNo body s.trust s.belief i | _ => none

/-- The distance measured after pass `i + 1`. -/
def distNo (body : Vec α → Vec α → Except PyErr (Option (Step α))) (ms : Option Measure)
    (t b : Vec α) (i : Nat) : Option α :=
  match passNo body t b i with
  | some s => match getDistance ms s.cmp1 s.cmp2 with | .ok x => some x | _ => none
  | none => none

/-- The distance after pass `i + 1` exists and is below the threshold. -/
def CloseAt (body : Vec α → Vec α → Except PyErr (Option (Step α))) (ms : Option Measure) (th : α)
    (t b : Vec α) (i : Nat) : Prop :=
  ∃ x, distNo body ms t b i = some x ∧ Arith.lt x th = true

/-- The distance after pass `i + 1` exists and is not below the threshold. -/
def FarAt (body : Vec α → Vec α → Except PyErr (Option (Step α))) (ms : Option Measure) (th : α)
    (t b : Vec α) (i : Nat) : Prop :=
  ∃ x, distNo body ms t b i = some x ∧ Arith.lt x th = false

theorem passNo_succ {body : Vec α → Vec α → Except PyErr (Option (Step α))} {t b : Vec α}
    {s : Step α} (h : body t b = .ok (some s)) (i : Nat) :
    passNo body t b (i + 1) = passNo body s.trust s.belief i := by
  simp [passNo, h]

theorem distNo_succ {body : Vec α → Vec α → Except PyErr (Option (Step α))} {ms : Option Measure}
    {t b : Vec α} {s : Step α} (h : body t b = .ok (some s)) (i : Nat) :
    distNo body ms t b (i + 1) = distNo body ms s.trust s.belief i := by
  simp [distNo, passNo_succ h]

/-- What `n` passes under a convergence iterator mean. -/
theorem conv_steps {body : Vec α → Vec α → Except PyErr (Option (Step α))} {ms : Option Measure}
    {th : α} {lim : Int} {st : IterState α} {t b : Vec α} {n : Nat} {st1 t1 b1 L1}
    (h : Steps (.conv ms th lim) body st t b n st1 t1 b1 L1) :
    (n = 0 → st1 = st ∧ t1 = t ∧ b1 = b) ∧
    (0 < n → st1.dist = distNo body ms t b (n - 1) ∧ st1.dist ≠ none ∧
      (st1.itCount : Int) ≤ max lim st.itCount ∧
      ((st.itCount + n - 1 : Nat) : Int) < lim) ∧
    (∀ i, i + 1 < n → FarAt body ms th t b i) := by
  induction h with
  | refl => simp
  | @cons st t b s st' n st'' t'' b'' L hf hb hc hs ih =>
    obtain ⟨ih0, ih1, ih2⟩ := ih
    have hit := compare_itCount hc
    simp only [IterCfg.compare, bind, Except.bind, pure, Except.pure] at hc
    cases hd : getDistance ms s.cmp1 s.cmp2 with
    | error e => rw [hd] at hc; simp at hc
    | ok x =>
      rw [hd] at hc
      simp only [Except.ok.injEq] at hc
      have hx : st'.dist = some x := by rw [← hc]
      have hd0 : distNo body ms t b 0 = some x := by simp [distNo, passNo, hb, hd]
      have hlim : (st.itCount : Int) < lim := by
        simp only [IterCfg.finished] at hf
        split at hf
        · simp at hf
        · split at hf
          · simp at hf
          · omega
      refine ⟨by omega, ?_, ?_⟩
      · intro _
        rcases Nat.eq_zero_or_pos n with rfl | hn
        · obtain ⟨rfl, -, -⟩ := ih0 rfl
          refine ⟨by simp [hx, hd0], by simp [hx], by omega, by simpa using hlim⟩
        · obtain ⟨a1, a2, a3, a4⟩ := ih1 hn
          refine ⟨?_, a2, ?_, ?_⟩
          · rw [a1, show n + 1 - 1 = (n - 1) + 1 by omega, distNo_succ hb]
          · rw [hit] at a3; omega
          · rw [hit] at a4; push_cast at a4 ⊢; omega
      · intro i hi
        cases i with
        | zero =>
          refine ⟨x, hd0, ?_⟩
          -- the next pass was entered, so the distance was not below the threshold
          cases hs with
          | refl => omega
          | cons hf' _ _ _ =>
            simp only [IterCfg.finished, IterState.below, hx] at hf'
            by_contra hlt
            have : Arith.lt x th = true := by simpa using hlt
            simp [this] at hf'
        | succ i =>
          obtain ⟨y, hy, hlt⟩ := ih2 i (by omega)
          exact ⟨y, by rw [distNo_succ hb]; exact hy, hlt⟩

theorem conv_steps_le {body : Vec α → Vec α → Except PyErr (Option (Step α))} {ms : Option Measure}
    {th : α} {lim : Int} {t b : Vec α} {n : Nat} {st1 t1 b1 L1}
    (h : Steps (.conv ms th lim) body {} t b n st1 t1 b1 L1) : n ≤ lim.toNat := by
  have := (conv_steps h).2.1
  rcases Nat.eq_zero_or_pos n with rfl | hn
  · omega
  · have h4 := (this hn).2.2.2
    simp only [Nat.zero_add] at h4
    omega

/-- A run with a convergence iterator always stops by itself. -/
theorem conv_terminates (c : AlgCfg α) (ms : Option Measure) (th : α) (lim : Int)
    (hc : c.iterator = .conv ms th lim) (d : Dataset S V X α)
    (fuel : Nat) (hfuel : lim.toNat < fuel) (st : IterState α) :
    c.exec d.mats fuel st ≠ .error .diverge ∧
    ∀ fuel' st', lim.toNat < fuel' → c.exec d.mats fuel' st' = c.exec d.mats fuel st := by
  by_cases h0 : d.mats.numClaims = 0
  · refine ⟨?_, ?_⟩
    · simp [exec_empty _ _ _ _ h0]
    · intro _ _ _; rw [exec_empty _ _ _ _ h0, exec_empty _ _ _ _ h0]
  · refine ⟨?_, ?_⟩
    · intro he
      rcases exec_error c _ fuel st _ h0 he with h | ⟨-, t0, b0, st', t, b, L, -, hs⟩
      · simp at h
      · rw [hc] at hs
        have := conv_steps_le hs
        omega
    · intro fuel' st' hf'
      rw [exec_eq _ _ _ _ h0, exec_eq _ _ _ _ h0]
      cases hi : c.init d.mats with
      | error e' => rfl
      | ok p =>
        obtain ⟨t0, b0⟩ := p
        simp only
        have : loop c.iterator (c.kind.body d.mats) fuel' {} t0 b0 (initLog c t0 b0) =
            loop c.iterator (c.kind.body d.mats) fuel {} t0 b0 (initLog c t0 b0) := by
          rcases Nat.le_total fuel fuel' with h | h
          · apply loop_fuel_mono h
            intro _ _ _ _ hs
            rw [hc] at hs
            have := conv_steps_le hs; omega
          · symm
            apply loop_fuel_mono h
            intro _ _ _ _ hs
            rw [hc] at hs
            have := conv_steps_le hs; omega
        rw [this]

/-- If it returns, then after `k ≤ limit` iterations, where `k` is the
first one whose distance is below the threshold, unless the algorithm finished
early (and then no earlier distance was below the threshold either). -/
theorem conv_result (c : AlgCfg α) (ms : Option Measure) (th : α) (lim : Int)
    (hc : c.iterator = .conv ms th lim) (d : Dataset S V X α) (fuel : Nat) (st : IterState α)
    (r : RunOut α) (hr : c.exec d.mats fuel st = .ok r) :
    ∃ t0 b0, c.init d.mats = .ok (t0, b0) ∧ (r.iterations : Int) ≤ max lim 0 ∧
      (∀ i, i + 1 < r.iterations → FarAt (c.kind.body d.mats) ms th t0 b0 i) ∧
      ((∃ i, r.iterations = i + 1 ∧ CloseAt (c.kind.body d.mats) ms th t0 b0 i) ∨
        ∃ t b, c.kind.body d.mats t b = .ok none ∧ r.trust = t ∧ r.belief = b) := by
  obtain ⟨-, t0, b0, n, st', t, b, L, hi, -, hs, hst, hf, hit, -⟩ :=
    (exec_ok_iff c d.mats fuel st r).1 hr
  rw [hc] at hs hst
  obtain ⟨c0, c1, c2⟩ := conv_steps hs
  refine ⟨t0, b0, hi, ?_, by rw [hit]; exact c2, ?_⟩
  · rw [hit]; have := conv_steps_le hs; omega
  · rcases hst with hst | ⟨-, hb⟩
    · left
      simp only [IterCfg.finished] at hst
      split at hst
      · rename_i hbelow
        rcases Nat.eq_zero_or_pos n with rfl | hn
        · obtain ⟨rfl, -, -⟩ := c0 rfl
          simp [IterState.below] at hbelow
        · obtain ⟨a1, a2, -, -⟩ := c1 hn
          refine ⟨n - 1, by omega, ?_⟩
          unfold IterState.below at hbelow
          cases hd : st'.dist with
          | none => exact absurd hd a2
          | some x =>
            rw [hd] at hbelow a1
            exact ⟨x, a1.symm, hbelow⟩
      · split at hst <;> simp at hst
    · right
      have hk := body_none hb
      have hfin : c.finish t b = .ok (t, b) := by
        unfold AlgCfg.finish
        rcases hk with ⟨g, hk⟩ | ⟨g, hk⟩ | ⟨x, y, z, hk⟩ <;> simp [hk]
      rw [hfin] at hf
      simp only [Except.ok.injEq, Prod.mk.injEq] at hf
      exact ⟨t, b, hb, hf.1.symm, hf.2.symm⟩

/-- Sequence of passes under a convergence iterator from far distances. -/
theorem conv_steps_exist {body : Vec α → Vec α → Except PyErr (Option (Step α))}
    {ms : Option Measure} {th : α} {lim : Int} (n : Nat) {st : IterState α} {t b : Vec α}
    (hst : st.below th = false) (hlim : ((st.itCount + n : Nat) : Int) ≤ lim ∨ n = 0)
    (hfar : ∀ i < n, FarAt body ms th t b i) :
    ∃ st1 t1 b1 L, Steps (.conv ms th lim) body st t b n st1 t1 b1 L ∧ st1.below th = false := by
  induction n generalizing st t b with
  | zero => exact ⟨_, _, _, _, .refl _ _ _, hst⟩
  | succ n ih =>
    obtain ⟨x, hx, hlt⟩ := hfar 0 (by omega)
    have hpass : ∃ s, body t b = .ok (some s) ∧ getDistance ms s.cmp1 s.cmp2 = .ok x := by
      simp only [distNo, passNo] at hx
      split at hx
      · rename_i s hs
        split at hs
        · rename_i s' hb
          simp at hs; subst hs
          split at hx
          · rename_i hd; simp at hx; subst hx; exact ⟨_, hb, hd⟩
          · simp at hx
        · simp at hs
      · simp at hx
    obtain ⟨s, hb, hd⟩ := hpass
    have hl : ((st.itCount + (n + 1) : Nat) : Int) ≤ lim := by
      rcases hlim with h | h
      · exact h
      · omega
    have hf : (IterCfg.conv ms th lim).finished st = .ok false := by
      simp only [IterCfg.finished, hst, Bool.false_eq_true, ↓reduceIte]
      rw [if_neg]
      push_cast at hl; omega
    have hcmp : (IterCfg.conv ms th lim).compare st s.cmp1 s.cmp2 =
        .ok { st with itCount := st.itCount + 1, dist := some x } := by
      simp [IterCfg.compare, hd, bind, Except.bind, pure, Except.pure]
    obtain ⟨st1, t1, b1, L, hs, hbelow⟩ := ih
      (st := { st with itCount := st.itCount + 1, dist := some x }) (t := s.trust) (b := s.belief)
      (by simp [IterState.below, hlt])
      (by left; push_cast at hl ⊢; omega)
      (fun i hi => by
        obtain ⟨y, hy, h⟩ := hfar (i + 1) (by omega)
        exact ⟨y, by rw [distNo_succ hb] at hy; exact hy, h⟩)
    exact ⟨_, _, _, _, .cons hf hb hcmp hs, hbelow⟩

/-- `ConvergenceError` is raised exactly when none of the first
`max(limit, 0)` iterations fails, ends early or has distance below the
threshold. -/
theorem conv_error_iff (c : AlgCfg α) (ms : Option Measure) (th : α) (lim : Int)
    (hc : c.iterator = .conv ms th lim) (d : Dataset S V X α) (fuel : Nat)
    (hfuel : lim.toNat < fuel) (st : IterState α) :
    c.exec d.mats fuel st = .error .convergence ↔ d.mats.numClaims ≠ 0 ∧
      ∃ t0 b0, c.init d.mats = .ok (t0, b0) ∧
        ∀ i < lim.toNat, FarAt (c.kind.body d.mats) ms th t0 b0 i := by
  by_cases h0 : d.mats.numClaims = 0
  · simp [exec_empty _ _ _ _ h0, h0]
  · rw [exec_eq _ _ _ _ h0]
    simp only [ne_eq, h0, not_false_eq_true, true_and]
    cases hi : c.init d.mats with
    | error e' =>
      simp only [Except.error.injEq, reduceCtorEq, false_and, exists_const, iff_false]
      rintro rfl; simpa using init_error hi
    | ok p =>
      obtain ⟨t0, b0⟩ := p
      have hloop : loop c.iterator (c.kind.body d.mats) fuel {} t0 b0 (initLog c t0 b0) =
          .error .convergence ↔ ∀ i < lim.toNat, FarAt (c.kind.body d.mats) ms th t0 b0 i := by
        rw [loop_error_iff, hc]
        constructor
        · rintro (⟨h, -⟩ | ⟨n, st', t', b', L, -, hs, hr⟩)
          · simp at h
          · rcases hr with h | ⟨-, h | ⟨s, -, h⟩⟩
            · obtain ⟨c0, c1, c2⟩ := conv_steps hs
              have hcount : st'.itCount = n := by rw [hs.itCount]; simp
              have hnl : ¬ st'.below th = true ∧ (n : Int) ≥ lim := by
                simp only [IterCfg.finished] at h
                split at h
                · simp at h
                · rename_i hb
                  split at h
                  · rename_i hl; rw [hcount] at hl; exact ⟨hb, hl⟩
                  · simp at h
              intro i hi'
              have hin : i < n := by omega
              rcases Nat.lt_or_ge (i + 1) n with h1 | h1
              · exact c2 i h1
              · obtain rfl : n = i + 1 := by omega
                obtain ⟨a1, a2, -, -⟩ := c1 (by omega)
                cases hd : st'.dist with
                | none => exact absurd hd a2
                | some x =>
                  have hb := hnl.1
                  simp only [IterState.below, hd] at hb
                  rw [hd] at a1
                  exact ⟨x, a1.symm, by simpa using hb⟩
            · have := body_error h; simp at this
            · rcases compare_error h with h | h <;> simp at h
        · intro hfar
          right
          obtain ⟨st1, t1, b1, L, hs, hbelow⟩ := conv_steps_exist (lim := lim) lim.toNat
            (st := ({} : IterState α)) (by simp [IterState.below])
            (by rcases Nat.eq_zero_or_pos lim.toNat with h | h
                · exact .inr h
                · left; simp only [Nat.zero_add]; omega) hfar
          refine ⟨lim.toNat, st1, t1, b1, L, hfuel, hs, .inl ?_⟩
          have hcount : st1.itCount = lim.toNat := by rw [hs.itCount]; simp
          simp only [IterCfg.finished, hbelow, Bool.false_eq_true, ↓reduceIte]
          rw [if_pos]
          rw [hcount]; omega
      simp only [Except.ok.injEq, Prod.mk.injEq]
      constructor
      · intro h
        refine ⟨t0, b0, ⟨rfl, rfl⟩, hloop.1 ?_⟩
        cases hl : loop c.iterator (c.kind.body d.mats) fuel {} t0 b0 (initLog c t0 b0) with
        | error e' => rw [hl] at h; simpa using h
        | ok e' =>
          exfalso
          rw [hl] at h
          simp only at h
          cases hf : c.finish e'.trust e'.belief with
          | error e'' =>
            rw [hf] at h; simp at h; subst h
            rcases finish_error hf with h | h <;> simp at h
          | ok q => rw [hf] at h; simp at h
      · rintro ⟨t0', b0', ⟨rfl, rfl⟩, hfar⟩
        rw [hloop.2 hfar]

/-- The distance used is the one between the trust vectors before and after the
pass, for every algorithm but UnboundedSums (whose vector before rescaling is
compared). -/
theorem compares_trust (k : Kind α) (m : Mats α) (t b : Vec α) (s : Step α)
    (hk : k ≠ .unboundedSums) (h : k.body m t b = .ok (some s)) :
    (s.cmp1 = t ∧ s.cmp2 = s.trust) ∨ (s.cmp1 = s.trust ∧ s.cmp2 = t) := by
  cases k with
  | sums =>
    obtain ⟨a, c, h1, h2, h3⟩ := normalise2_ok (g := fun a b => ⟨t, a, a, b⟩) h
    simp at h3; subst h3; exact .inl ⟨rfl, rfl⟩
  | averageLog =>
    obtain ⟨a, c, h1, h2, h3⟩ := normalise2_ok (g := fun a b => ⟨a, t, a, b⟩) h
    simp at h3; subst h3; exact .inr ⟨rfl, rfl⟩
  | investment g =>
    simp only [Kind.body, investBody] at h
    cases hu : updateTrust m t b with
    | none => rw [hu] at h; simp [pure, Except.pure] at h
    | some nt =>
      rw [hu] at h
      obtain ⟨a, c, h1, h2, h3⟩ := normalise2_ok (g := fun a b => ⟨a, t, a, b⟩) h
      simp at h3; subst h3; exact .inr ⟨rfl, rfl⟩
  | pooledInvestment g =>
    simp only [Kind.body, pooledBody] at h
    cases hu : updateTrust m t b with
    | none => rw [hu] at h; simp [pure, Except.pure] at h
    | some nt =>
      rw [hu] at h
      obtain ⟨a, c, h1, h2, h3⟩ := normalise2_ok (g := fun a b => ⟨a, t, a, b⟩) h
      simp at h3; subst h3; exact .inr ⟨rfl, rfl⟩
  | truthFinder rho gamma t0 =>
    simp only [Kind.body, tfBody] at h
    cases hl : logTrust t with
    | none => simp [hl] at h
    | some tau => simp [hl] at h; subst h; exact .inr ⟨rfl, rfl⟩
  | crh eps => simp [Kind.body, crhBody] at h; subst h; exact .inl ⟨rfl, rfl⟩
  | unboundedSums => exact absurd rfl hk

example : ∃ d : Dataset String String Nat Int, Dataset.mk' Toy.triples false none = .ok d ∧
    ∃ r, (⟨.sums, .conv (some .l1) 1 10, some .count⟩ : AlgCfg Int).exec d.mats 11 = .ok r ∧
      r.iterations = 3 := ⟨_, rfl, _, rfl, rfl⟩

example : ∃ d : Dataset String String Nat Int, Dataset.mk' Toy.triples false none = .ok d ∧
    (⟨.sums, .conv (some .l1) 0 3, some .count⟩ : AlgCfg Int).exec d.mats 4 =
      .error .convergence := ⟨_, rfl, rfl⟩

/-! ### OrdinalConvergenceIterator -/

/-- The two vectors have the same ranking. -/
def SameRanking (p : Vec α × Vec α) : Prop :=
  ∃ r, rankingVector p.1 = .ok r ∧ rankingVector p.2 = .ok r

/-- **C23.** After any sequence of comparisons since the last reset, `finished()`
is true iff at least `threshold` of the most recent ones, consecutively, found
equal rankings. -/
theorem C23_ordinal_iterator (th : Int) (st0 st : IterState α) (ps : List (Vec α × Vec α))
    (h : ps.foldlM (fun s p => (IterCfg.ord th).compare s p.1 p.2) ((IterCfg.ord th).reset st0) =
      .ok st) :
    ∃ fin, (IterCfg.ord th : IterCfg α).finished st = .ok fin ∧
      (fin = true ↔ ∃ k : Nat, th ≤ k ∧ k ≤ ps.length ∧
        ∀ p ∈ ps.drop (ps.length - k), SameRanking p) := by
  refine ⟨_, rfl, ?_⟩
  -- `count` is the length of the longest suffix of equal rankings
  have key : st.count ≤ ps.length ∧ (∀ p ∈ ps.drop (ps.length - st.count), SameRanking p) ∧
      ∀ k ≤ ps.length, (∀ p ∈ ps.drop (ps.length - k), SameRanking p) → k ≤ st.count := by
    simp only [IterCfg.reset] at h
    induction ps using List.reverseRecOn generalizing st with
    | nil =>
      simp only [List.foldlM_nil, pure, Except.pure, Except.ok.injEq] at h
      subst h
      simp
    | append_singleton ps p ih =>
      rw [List.foldlM_append] at h
      cases hps : ps.foldlM (fun s p => (IterCfg.ord th).compare s p.1 p.2) ({} : IterState α) with
      | error e => rw [hps] at h; simp [bind, Except.bind] at h
      | ok st1 =>
        rw [hps] at h
        obtain ⟨i1, i2, i3⟩ := ih st1 hps
        simp only [bind, Except.bind, List.foldlM_cons, List.foldlM_nil, pure, Except.pure,
          IterCfg.compare] at h
        cases hr1 : rankingVector p.1 with
        | error e => rw [hr1] at h; simp at h
        | ok r1 =>
          cases hr2 : rankingVector p.2 with
          | error e => rw [hr1, hr2] at h; simp at h
          | ok r2 =>
            rw [hr1, hr2] at h
            simp only [Except.ok.injEq] at h
            have hcount : st.count = if r1 = r2 then st1.count + 1 else 0 := by rw [← h]
            have hsame : SameRanking p ↔ r1 = r2 := by
              unfold SameRanking
              rw [hr1, hr2]
              simp only [Except.ok.injEq]
              constructor
              · rintro ⟨r, h1, h2⟩; rw [h1, h2]
              · rintro rfl; exact ⟨_, rfl, rfl⟩
            have hdrop : ∀ k, k ≤ ps.length →
                (ps ++ [p]).drop ((ps ++ [p]).length - (k + 1)) = ps.drop (ps.length - k) ++ [p] := by
              intro k hk
              rw [List.length_append, List.length_singleton,
                show ps.length + 1 - (k + 1) = ps.length - k by omega,
                List.drop_append_of_le_length (by omega)]
            by_cases he : r1 = r2
            · rw [if_pos he] at hcount
              rw [hcount]
              refine ⟨by simp; omega, ?_, ?_⟩
              · rw [hdrop _ i1]
                intro q hq
                rcases List.mem_append.1 hq with hq | hq
                · exact i2 q hq
                · simp at hq; subst hq; exact hsame.2 he
              · intro k hk hall
                cases k with
                | zero => omega
                | succ k =>
                  simp only [List.length_append, List.length_singleton] at hk
                  have hk' : k ≤ ps.length := by omega
                  rw [hdrop k hk'] at hall
                  have := i3 k hk' (fun q hq => hall q (by simp [hq]))
                  omega
            · rw [if_neg he] at hcount
              rw [hcount]
              refine ⟨by omega, by simp, ?_⟩
              intro k hk hall
              cases k with
              | zero => omega
              | succ k =>
                simp only [List.length_append, List.length_singleton] at hk
                rw [hdrop k (by omega)] at hall
                exact absurd (hsame.1 (hall p (by simp))) he
  obtain ⟨k1, k2, k3⟩ := key
  simp only [decide_eq_true_eq]
  constructor
  · intro hth
    exact ⟨st.count, by omega, k1, k2⟩
  · rintro ⟨k, h1, h2, h3⟩
    have := k3 k h2 h3
    omega

example : ∃ st : IterState Int, ([([1, 2], [2, 1]), ([1, 5], [1, 2]), ([3, 3], [2, 2])] : List (List Int × List Int)).foldlM
    (fun s p => (IterCfg.ord 2).compare s p.1 p.2) {} = .ok st ∧
    (IterCfg.ord 2 : IterCfg Int).finished st = .ok true := ⟨_, rfl, rfl⟩

/-! ### run and run_iter -/

/-- **C26.** `run_iter` raises iff `run` raises, with the same exception. -/
theorem C26_same_exception (h10 : Arith.eq (Arith.ofNat 1 : α) (Arith.ofNat 0) = false)
    (l : List (S × V × X)) (am : Bool) (f : Option (V → X → X → Option α))
    (d : Dataset S V X α) (h : Dataset.mk' l am f = .ok d) (c : AlgCfg α)
    (fuel : Nat) (clock clock' : Nat → α) (st st' : IterState α) (e : PyErr) :
    c.runIter d fuel clock st = .error e ↔ c.run d fuel clock' st' = .error e := by
  obtain ⟨rfl, -, -⟩ := (mk'_ok_iff l h10 am f d).1 h
  rw [run_eq, runIter_eq, exec_state_irrelevant c _ fuel st st']
  cases c.exec (matsOf l f) fuel st' <;> simp

theorem enum_getElem? {β : Type} (L : List β) (k : Nat) :
    (enum L)[k]? = L[k]?.map fun x => (k, x) := by
  simp only [enum, List.getElem?_map, List.getElem?_zipIdx]
  cases L[k]? <;> simp

theorem logsInit_eq {β : Type} (k : Kind β) : k.logsInit = startsWithInitial k := by cases k <;> rfl

/-- The log of a successful run. -/
theorem log_of_exec {c : AlgCfg α} {m : Mats α} {fuel : Nat} {st : IterState α} {r : RunOut α}
    (h : c.exec m fuel st = .ok r) :
    ∃ t b, c.finish t b = .ok (r.trust, r.belief) ∧
      (c.kind.logsInit = true ∨ r.iterations ≠ 0 →
        r.log.getLast? = some ⟨r.iterations, t, b⟩) ∧
      (c.kind.logsInit = true → r.log.length = r.iterations + 1 ∧
        ∀ (k : Nat) (e : LogEntry α), r.log[k]? = some e → e.iterations = k) ∧
      (c.kind.logsInit = false → r.log.length = r.iterations ∧
        ∀ (k : Nat) (e : LogEntry α), r.log[k]? = some e → e.iterations = k + 1) := by
  obtain ⟨-, t0, b0, n, st', t, b, L, hi, -, hs, hst, hf, hit, hlog⟩ :=
    (exec_ok_iff c m fuel st r).1 h
  have hlast := hs.last ⟨0, t0, b0⟩ rfl
  have hcount : st'.itCount = n := by rw [hs.itCount]; simp
  have hlen := hs.length
  have hits := hs.log_iterations
  rw [hcount] at hlast
  refine ⟨t, b, hf, ?_, ?_, ?_⟩
  · rintro hor
    rw [hlog, hit]
    cases hk : c.kind.logsInit with
    | true => simpa [initLog, hk] using hlast
    | false =>
      have hn : n ≠ 0 := by
        rcases hor with h | h
        · rw [hk] at h; simp at h
        · omega
      have hL : L ≠ [] := by rintro rfl; simp at hlen; omega
      obtain ⟨x, L', rfl⟩ := List.exists_cons_of_ne_nil hL
      rw [List.getLast?_cons_cons] at hlast
      simpa [initLog, hk] using hlast
  · intro hk
    rw [hlog]
    simp only [initLog, hk, ↓reduceIte, List.singleton_append, List.length_cons, hlen, hit,
      true_and]
    intro k e he
    cases k with
    | zero => simp at he; subst he; rfl
    | succ k => simp at he; have := hits k e he; simpa using this
  · intro hk
    rw [hlog]
    simp only [initLog, hk, Bool.false_eq_true, ↓reduceIte, List.nil_append, hlen, hit, true_and]
    intro k e he
    have := hits k e he
    simpa using this

/-- **C26.** The last partial result is the result of `run`, for every algorithm
but UnboundedSums, whenever there is a partial result (always, except for CRH
with zero iterations). -/
theorem C26_last_partial_result (h10 : Arith.eq (Arith.ofNat 1 : α) (Arith.ofNat 0) = false)
    (l : List (S × V × X)) (am : Bool) (f : Option (V → X → X → Option α))
    (d : Dataset S V X α) (h : Dataset.mk' l am f = .ok d) (c : AlgCfg α)
    (hk : c.kind ≠ .unboundedSums)
    (fuel : Nat) (clock clock' : Nat → α) (st st' : IterState α)
    (rs : List (Result S V X α)) (r : Result S V X α)
    (h1 : c.runIter d fuel clock st = .ok rs) (h2 : c.run d fuel clock' st' = .ok r)
    (hne : startsWithInitial c.kind = true ∨ r.iterations ≠ some 0) :
    ∃ last, rs.getLast? = some last ∧ last.trust = r.trust ∧ last.belief = r.belief ∧
      last.iterations = r.iterations := by
  rw [← logsInit_eq] at hne
  obtain ⟨rfl, -, -⟩ := (mk'_ok_iff l h10 am f d).1 h
  rw [runIter_eq, exec_state_irrelevant c _ fuel st st'] at h1
  rw [run_eq] at h2
  cases he : c.exec (matsOf l f) fuel st' with
  | error e => rw [he] at h1; simp at h1
  | ok out =>
    rw [he] at h1 h2
    simp only [Except.ok.injEq] at h1 h2
    subst h1; subst h2
    obtain ⟨t, b, hf, hlast, -, -⟩ := log_of_exec he
    have hfin : c.finish t b = .ok (t, b) := by
      unfold AlgCfg.finish
      cases hkk : c.kind <;> simp_all
    rw [hfin] at hf
    simp only [Except.ok.injEq, Prod.mk.injEq] at hf
    have hl := hlast (by simpa [resultOf] using hne)
    rw [List.getLast?_eq_getElem?] at hl ⊢
    have hlen : ((enum out.log).map fun p => resultOf l p.2.trust p.2.belief
        (clock (p.1 + 1) -. clock 0) (some p.2.iterations)).length = out.log.length := by
      simp [enum]
    rw [hlen, List.getElem?_map, enum_getElem?, hl]
    refine ⟨_, rfl, ?_, ?_, rfl⟩
    · simp [resultOf, hf.1]
    · simp [resultOf, hf.2]

/-- UnboundedSums: `run` returns the rankings of the last partial
result. -/
theorem usums_exec (c : AlgCfg α) (m : Mats α) (hk : c.kind = .unboundedSums) (fuel : Nat)
    (st : IterState α) (r : RunOut α) (h : c.exec m fuel st = .ok r) :
    ∃ last rt rb, r.log.getLast? = some last ∧ last.iterations = r.iterations ∧
      rankingVector last.trust = .ok rt ∧ rankingVector last.belief = .ok rb ∧
      r.trust = rt.map Arith.ofNat ∧ r.belief = rb.map Arith.ofNat := by
  obtain ⟨t, b, hf, hlast, -, -⟩ := log_of_exec h
  have hl := hlast (.inl (by rw [hk]; rfl))
  refine ⟨⟨r.iterations, t, b⟩, ?_⟩
  unfold AlgCfg.finish at hf
  rw [hk] at hf
  simp only at hf
  split at hf
  · simp only [bind, Except.bind, pure, Except.pure] at hf
    split at hf
    · simp at hf
    · rename_i r1 h1
      split at hf
      · simp at hf
      · rename_i r2 h2
        simp only [Except.ok.injEq, Prod.mk.injEq] at hf
        exact ⟨r1, r2, hl, rfl, h1, h2, hf.1.symm, hf.2.symm⟩
  · simp at hf

/-- **C26.** Partial results are numbered consecutively: from 0 for algorithms
that log their initial state, from 1 for CRH; there is one per iteration (plus
the initial one). -/
theorem C26_numbering (h10 : Arith.eq (Arith.ofNat 1 : α) (Arith.ofNat 0) = false)
    (l : List (S × V × X)) (am : Bool) (f : Option (V → X → X → Option α))
    (d : Dataset S V X α) (h : Dataset.mk' l am f = .ok d) (c : AlgCfg α)
    (fuel : Nat) (clock clock' : Nat → α) (st st' : IterState α)
    (rs : List (Result S V X α)) (r : Result S V X α)
    (h1 : c.runIter d fuel clock st = .ok rs) (h2 : c.run d fuel clock' st' = .ok r) :
    ∃ n, r.iterations = some n ∧
      rs.length = (if startsWithInitial c.kind then n + 1 else n) ∧
      ∀ k x, rs[k]? = some x → x.iterations = some (if startsWithInitial c.kind then k else k + 1) := by
  rw [← logsInit_eq]
  obtain ⟨rfl, -, -⟩ := (mk'_ok_iff l h10 am f d).1 h
  rw [runIter_eq, exec_state_irrelevant c _ fuel st st'] at h1
  rw [run_eq] at h2
  cases he : c.exec (matsOf l f) fuel st' with
  | error e => rw [he] at h1; simp at h1
  | ok out =>
    rw [he] at h1 h2
    simp only [Except.ok.injEq] at h1 h2
    subst h1; subst h2
    obtain ⟨t, b, hf, -, hyes, hno⟩ := log_of_exec he
    refine ⟨out.iterations, rfl, ?_, ?_⟩
    · simp only [List.length_map, enum, List.length_zipIdx]
      cases hk : c.kind.logsInit with
      | true => simpa using (hyes hk).1
      | false => simpa using (hno hk).1
    · intro k x hx
      rw [List.getElem?_map, enum_getElem?, Option.map_map, Option.map_eq_some_iff] at hx
      obtain ⟨e, he', rfl⟩ := hx
      cases hk : c.kind.logsInit with
      | true => simp [resultOf, (hyes hk).2 k e he']
      | false => simp [resultOf, (hno hk).2 k e he']

example : ∃ d : Dataset String String Nat Int, Dataset.mk' Toy.triples false none = .ok d ∧
    ∃ rs, (⟨.sums, .fixed 3, some .count⟩ : AlgCfg Int).runIter d 4 (fun _ => 0) = .ok rs ∧
      rs.length = 4 := ⟨_, rfl, _, rfl, rfl⟩

/-- Same algorithm with another iteration count. -/
def AlgCfg.withFixed (c : AlgCfg α) (n : Nat) : AlgCfg α := { c with iterator := .fixed n }

theorem fixed_steps_change {body : Vec α → Vec α → Except PyErr (Option (Step α))} {N M : Nat}
    {st : IterState α} {t b : Vec α} {n : Nat} {st1 t1 b1 L1}
    (h : Steps (.fixed (N : Int)) body st t b n st1 t1 b1 L1) (hM : st.itCount + n ≤ M) :
    Steps (.fixed (M : Int)) body st t b n st1 t1 b1 L1 := by
  induction h with
  | refl => exact .refl _ _ _
  | cons hf hb hc _ ih =>
    have hit := compare_itCount hc
    refine .cons ?_ hb hc (ih (by omega))
    simp only [IterCfg.finished, Except.ok.injEq, decide_eq_false_iff_not]
    omega

/-- If the longer of two fixed-length runs succeeds, so does the shorter
one, and its partial results are the first ones of the longer run. -/
theorem fixed_prefix (c : AlgCfg α) (m : Mats α) (n k : Nat) (hnk : n ≤ k)
    (fuel fuel' : Nat) (hfuel : n < fuel') (st st' : IterState α) (r : RunOut α)
    (h : (c.withFixed k).exec m fuel st = .ok r) :
    ∃ r', (c.withFixed n).exec m fuel' st' = .ok r' ∧ ∃ more, r.log = r'.log ++ more ∧
      (more ≠ [] → r'.iterations = n) := by
  obtain ⟨h0, t0, b0, j, st1, t, b, L, hi, hj, hs, hst, hf, hit, hlog⟩ :=
    (exec_ok_iff _ m fuel st r).1 h
  have hs : Steps (.fixed (k : Int)) (c.kind.body m) {} t0 b0 j st1 t b L := hs
  have hk : c.kind ≠ .unboundedSums := by
    intro e
    simp [AlgCfg.finish, AlgCfg.withFixed, e] at hf
  have hi' : (c.withFixed n).init m = .ok (t0, b0) := hi
  have hfin : ∀ t b, (c.withFixed n).finish t b = .ok (t, b) := by
    intro t b
    unfold AlgCfg.finish AlgCfg.withFixed
    cases hkk : c.kind <;> simp_all
  have hcount : st1.itCount = j := by rw [hs.itCount]; simp
  rcases Nat.le_total j n with hjn | hjn
  · -- the long run already ended early (or has the same length)
    have hs' := fixed_steps_change (M := n) hs (by simpa using hjn)
    have hst' : Stops (.fixed (n : Int)) (c.kind.body m) st1 t b := by
      rcases Nat.lt_or_ge j n with hlt | hge
      · rcases hst with hst | ⟨-, hb⟩
        · exfalso
          have hst : (IterCfg.fixed (k : Int) : IterCfg α).finished st1 = .ok true := hst
          simp only [IterCfg.finished, Except.ok.injEq, decide_eq_true_eq, hcount] at hst
          omega
        · right
          refine ⟨?_, hb⟩
          simp only [IterCfg.finished, Except.ok.injEq, decide_eq_false_iff_not, hcount]
          omega
      · left
        simp only [IterCfg.finished, Except.ok.injEq, decide_eq_true_eq, hcount]
        omega
    refine ⟨⟨t, b, j, initLog c t0 b0 ++ L⟩, ?_, [], ?_, by simp⟩
    · rw [exec_ok_iff]
      exact ⟨h0, t0, b0, j, st1, t, b, L, hi', by omega, hs', hst', hfin t b, rfl, rfl⟩
    · rw [hlog]; simp; rfl
  · obtain ⟨st2, t2, b2, L2, L3, h1, h2, rfl⟩ := hs.split n hjn
    have h1' := fixed_steps_change (M := n) h1 (by simp)
    have hcount2 : st2.itCount = n := by rw [h1.itCount]; simp
    refine ⟨⟨t2, b2, n, initLog c t0 b0 ++ L2⟩, ?_, L3, ?_, fun _ => rfl⟩
    · rw [exec_ok_iff]
      refine ⟨h0, t0, b0, n, st2, t2, b2, L2, hi', hfuel, h1', .inl ?_, hfin t2 b2, rfl, rfl⟩
      show (IterCfg.fixed (n : Int) : IterCfg α).finished st2 = .ok true
      simp only [IterCfg.finished, Except.ok.injEq, decide_eq_true_eq, hcount2]
      omega
    · rw [hlog]; simp; rfl

/-- **C27**: the list of partial results of the shorter run is a prefix of that of the longer run (all fields, if
the clock shows the same times), and if it is not all of it then it shows `n` iterations. -/
theorem C27_run_iter_prefix (h10 : Arith.eq (Arith.ofNat 1 : α) (Arith.ofNat 0) = false)
    (l : List (S × V × X)) (am : Bool) (f : Option (V → X → X → Option α))
    (d : Dataset S V X α) (h : Dataset.mk' l am f = .ok d)
    (c : AlgCfg α) (n k : Nat) (hnk : n ≤ k)
    (fuel fuel' : Nat) (hfuel : n < fuel') (clock : Nat → α) (st st' : IterState α)
    (rs : List (Result S V X α))
    (hr : (c.withFixed k).runIter d fuel clock st = .ok rs) :
    ∃ rs', (c.withFixed n).runIter d fuel' clock st' = .ok rs' ∧ rs' <+: rs ∧
      (rs' = rs ∨ rs'.length = if startsWithInitial c.kind then n + 1 else n) := by
  obtain ⟨rfl, -, -⟩ := (mk'_ok_iff l h10 am f d).1 h
  rw [runIter_eq] at hr
  cases he : (c.withFixed k).exec (matsOf l f) fuel st with
  | error e => rw [he] at hr; simp at hr
  | ok r =>
    rw [he] at hr
    simp only [Except.ok.injEq] at hr
    obtain ⟨r', h1, more, h2, h3⟩ := fixed_prefix c (matsOf l f) n k hnk fuel fuel' hfuel st st' r he
    refine ⟨_, by rw [runIter_eq, h1], ?_, ?_⟩
    · rw [← hr, h2]
      simp only [enum, List.zipIdx_append, List.map_append]
      exact List.prefix_append _ _
    · by_cases hm : more = []
      · left
        rw [← hr, h2, hm, List.append_nil]
      · right
        obtain ⟨t, b, -, -, q1, q2⟩ := log_of_exec h1
        have hkk : (c.withFixed n).kind = c.kind := rfl
        rw [hkk] at q1 q2
        rw [← logsInit_eq]
        cases hlog : c.kind.logsInit with
        | true => simp [enum, (q1 hlog).1, h3 hm]
        | false => simp [enum, (q2 hlog).1, h3 hm]

example : ∃ d : Dataset String String Nat Int, Dataset.mk' Toy.triples false none = .ok d ∧
    ∃ r, ((⟨.crh 1, .fixed 0, some .count⟩ : AlgCfg Int).withFixed 5).exec d.mats 6 = .ok r ∧
      r.log.length = 5 := ⟨_, rfl, _, rfl, rfl⟩

/-- The distance of two trust vectors, in one of the two orders the algorithms use. -/
def DistanceOf (ms : Option Measure) (u w : Vec α) (x : α) : Prop :=
  getDistance ms u w = .ok x ∨ getDistance ms w u = .ok x

theorem conv_log {k : Kind α} (hk : k ≠ .unboundedSums) {m : Mats α} {ms : Option Measure} {th : α}
    {lim : Int} {st : IterState α} {t b : Vec α} {n : Nat} {st1 t1 b1 L}
    (h : Steps (.conv ms th lim) (k.body m) st t b n st1 t1 b1 L) :
    ∀ (i : Nat) (u w : Vec α), (t :: L.map LogEntry.trust)[i]? = some u →
      (L.map LogEntry.trust)[i]? = some w →
      ∃ x, DistanceOf ms u w x ∧ (i + 1 < n → Arith.lt x th = false) ∧
        (i + 1 = n → st1.dist = some x) := by
  induction h with
  | refl => intro i u w _ h; simp at h
  | @cons st t b s st' n st'' t'' b'' L hf hb hcmp hs ih =>
    intro i u w hu hw
    cases i with
    | succ i =>
      simp only [List.map_cons, List.getElem?_cons_succ] at hu hw
      obtain ⟨x, h1, h2, h3⟩ := ih i u w hu hw
      exact ⟨x, h1, fun h => h2 (by omega), fun h => h3 (by omega)⟩
    | zero =>
      simp only [List.map_cons, List.getElem?_cons_zero, Option.some.injEq] at hu hw
      subst hu; subst hw
      simp only [IterCfg.compare] at hcmp
      cases hd : getDistance ms s.cmp1 s.cmp2 with
      | error e => simp [hd, bind, Except.bind] at hcmp
      | ok x =>
        simp only [hd, bind, Except.bind, pure, Except.pure, Except.ok.injEq] at hcmp
        refine ⟨x, ?_, ?_, ?_⟩
        · rcases compares_trust k m t b s hk hb with ⟨e1, e2⟩ | ⟨e1, e2⟩
          · rw [e1, e2] at hd; exact .inl hd
          · rw [e1, e2] at hd; exact .inr hd
        · intro hn
          cases hs with
          | refl => omega
          | cons hf' =>
            rw [← hcmp] at hf'
            simp only [IterCfg.finished, IterState.below] at hf'
            cases hx : Arith.lt x th with
            | false => rfl
            | true => simp [hx] at hf'
        · intro hn
          cases hs with
          | cons => omega
          | refl => rw [← hcmp]

/-- In terms of the partial results of `run_iter` alone: with a convergence
iterator there are at most `max(limit, 0) + 1` of them; the distance between the trust
scores of any two successive ones exists, and it is not below the threshold unless they
are the last two; the distance of the last two is below the threshold, unless the
algorithm gave up by itself. -/
theorem conv_partial_results (h10 : Arith.eq (Arith.ofNat 1 : α) (Arith.ofNat 0) = false)
    (l : List (S × V × X)) (am : Bool) (f : Option (V → X → X → Option α))
    (d : Dataset S V X α) (h : Dataset.mk' l am f = .ok d) (c : AlgCfg α)
    (hk : c.kind ≠ .unboundedSums) (hlog : startsWithInitial c.kind = true)
    (ms : Option Measure) (th : α) (lim : Int) (hc : c.iterator = .conv ms th lim)
    (fuel : Nat) (clock : Nat → α) (st : IterState α) (rs : List (Result S V X α))
    (hr : c.runIter d fuel clock st = .ok rs) :
    (rs.length : Int) ≤ max lim 0 + 1 ∧
    (∀ (i : Nat) (r r' : Result S V X α), rs[i]? = some r → rs[i + 1]? = some r' →
      ∃ x, DistanceOf ms (r.trust.map Prod.snd) (r'.trust.map Prod.snd) x ∧
        (i + 2 < rs.length → Arith.lt x th = false)) ∧
    ((∃ (i : Nat) (r r' : Result S V X α) (x : α), i + 2 = rs.length ∧ rs[i]? = some r ∧
        rs[i + 1]? = some r' ∧
        DistanceOf ms (r.trust.map Prod.snd) (r'.trust.map Prod.snd) x ∧
        Arith.lt x th = true) ∨
      ∃ r, rs.getLast? = some r ∧ CannotContinue l r c.kind) := by
  obtain ⟨rfl, -, -⟩ := (mk'_ok_iff l h10 am f d).1 h
  rw [← logsInit_eq] at hlog
  rw [runIter_eq] at hr
  cases he : c.exec (matsOf l f) fuel st with
  | error e => rw [he] at hr; simp at hr
  | ok out =>
    rw [he] at hr
    simp only [Except.ok.injEq] at hr
    obtain ⟨-, hsz⟩ := exec_sized (matsOf_wf l f) he
    obtain ⟨-, t0, b0, n, st', t, b, L, hi, -, hs, hst, hf, hit, hl⟩ :=
      (exec_ok_iff c (matsOf l f) fuel st out).1 he
    rw [hc] at hs hst
    have hlen := hs.length
    simp only [initLog, hlog, if_true, List.singleton_append] at hl
    have hget : ∀ (i : Nat) (r : Result S V X α), rs[i]? = some r →
        (t0 :: L.map LogEntry.trust)[i]? = some (r.trust.map Prod.snd) := by
      intro i r hir
      rw [← hr, List.getElem?_map, enum_getElem?] at hir
      cases hx : out.log[i]? with
      | none => rw [hx] at hir; simp at hir
      | some e =>
        rw [hx] at hir
        simp only [Option.map_some, Option.some.injEq] at hir
        have e1 := (hsz e (List.mem_of_getElem? hx)).1
        rw [← hir]
        have e2 : ((resultOf l e.trust e.belief (clock (i + 1) -. clock 0)
            (some e.iterations)).trust.map Prod.snd) = e.trust :=
          List.map_snd_zip (by
            have : e.trust.length = (sources l).length := e1
            omega)
        rw [e2]
        have e3 : (out.log.map LogEntry.trust)[i]? = some e.trust := by
          rw [List.getElem?_map, hx]; rfl
        rw [hl] at e3
        exact e3
    have hrl : rs.length = n + 1 := by
      rw [← hr, hl]; simp [enum, hlen]
    have hcl := conv_log hk hs
    have hnext : ∀ (i : Nat) (r' : Result S V X α), rs[i + 1]? = some r' →
        (L.map LogEntry.trust)[i]? = some (r'.trust.map Prod.snd) := by
      intro i r' h'
      simpa using hget (i + 1) r' h'
    refine ⟨?_, ?_, ?_⟩
    · have := conv_steps_le hs
      rw [hrl]; push_cast; omega
    · intro i r r' h1 h2
      obtain ⟨x, a1, a2, -⟩ := hcl i _ _ (hget i r h1) (hnext i r' h2)
      exact ⟨x, a1, fun h => a2 (by omega)⟩
    · rcases hst with hst | ⟨-, hb⟩
      · left
        obtain ⟨c0, -, -⟩ := conv_steps hs
        simp only [IterCfg.finished] at hst
        split at hst
        · rename_i hbelow
          rcases Nat.eq_zero_or_pos n with rfl | hn
          · obtain ⟨rfl, -, -⟩ := c0 rfl
            simp [IterState.below] at hbelow
          · have l1 : n - 1 < rs.length := by omega
            have l2 : n - 1 + 1 < rs.length := by omega
            have g1 := List.getElem?_eq_getElem l1
            have g2 := List.getElem?_eq_getElem l2
            obtain ⟨x, a1, -, a3⟩ := hcl (n - 1) _ _ (hget _ _ g1) (hnext _ _ g2)
            refine ⟨n - 1, _, _, x, by omega, g1, g2, a1, ?_⟩
            have := a3 (by omega)
            unfold IterState.below at hbelow
            rw [this] at hbelow
            exact hbelow
        · split at hst <;> simp at hst
      · right
        have hlast := hs.last ⟨0, t0, b0⟩ rfl
        have l1 : n < rs.length := by omega
        have g1 := List.getElem?_eq_getElem l1
        generalize rs[n] = x at g1
        refine ⟨x, ?_, ?_⟩
        · rw [List.getLast?_eq_getElem?, hrl]; simpa using g1
        · have h3 : out.log[n]? = some ⟨st'.itCount, t, b⟩ := by
            rw [hl, ← hlast, List.getLast?_eq_getElem?]
            simp [hlen]
          rw [← hr, List.getElem?_map, enum_getElem?, h3] at g1
          simp only [Option.map_some, Option.some.injEq] at g1
          rw [← g1]
          exact (body_none_iff l f c.kind (hsz _ (List.mem_of_getElem? h3)).1 _ _).1 hb

example : ∃ d : Dataset String String Nat Int, Dataset.mk' Toy.triples false none = .ok d ∧
    ∃ rs, (⟨.sums, .conv (some .l1) 1 10, some .count⟩ : AlgCfg Int).runIter d 11 (fun _ => 0) = .ok rs ∧
      rs.length = 4 := ⟨_, rfl, _, rfl, rfl⟩

/-- **C20**: what the constructors of the iterators make of their arguments, and the
defaults: 20 iterations; distance 0.0001 and at most 1000000 iterations; 20 equal rankings. -/
theorem C20_constructors {α : Type} [Arith α] (n : Int) (ms : Option Measure) (th : α) :
    (mkFixed none : Except PyErr (IterCfg α)) = .ok (.fixed 20) ∧
    (0 ≤ n → (mkFixed (some n) : Except PyErr (IterCfg α)) = .ok (.fixed n)) ∧
    (n < 0 → (mkFixed (some n) : Except PyErr (IterCfg α)) = .error .valueError) ∧
    mkConv ms (some th) (some n) = .conv ms th n ∧
    mkConv ms (some th) none = .conv ms th 1000000 ∧
    mkConv ms none (some n) = .conv ms (Arith.lit 1 10000 : α) n ∧
    (mkOrd none : IterCfg α) = .ord 20 ∧ (mkOrd (some n) : IterCfg α) = .ord n := by
  refine ⟨rfl, fun h => ?_, fun h => ?_, rfl, rfl, rfl, rfl, rfl⟩
  · rw [mkFixed, if_neg (by omega)]
  · rw [mkFixed, if_pos h]

end TD
