import Verif.Props.Runs
import Verif.Lemmas.Rounded
/-!
# C69: the iterator only decides when to stop

For every arithmetic.
-/

namespace TD
open Spec
attribute [-instance] instBEqProd

variable {S V X α : Type} [DecidableEq S] [DecidableEq V] [DecidableEq X] [Arith α]
  {body : Vec α → Vec α → Except PyErr (Option (Step α))}

/-- Same algorithm with another iterator. -/
def AlgCfg.withIterator (c : AlgCfg α) (it : IterCfg α) : AlgCfg α := { c with iterator := it }

theorem Steps.agree {it it' : IterCfg α} {st st' : IterState α} {t b : Vec α} {n : Nat}
    {st1 st2 t1 b1 L1 t2 b2 L2} (h : Steps it body st t b n st1 t1 b1 L1)
    (h' : Steps it' body st' t b n st2 t2 b2 L2) (hc : st.itCount = st'.itCount) :
    t1 = t2 ∧ b1 = b2 ∧ L1 = L2 := by
  induction h generalizing st' t2 b2 L2 with
  | refl => cases h'; exact ⟨rfl, rfl, rfl⟩
  | cons hf hb hcmp _ ih =>
    cases h' with
    | cons hf' hb' hcmp' h' =>
      cases hb.symm.trans hb'
      have e := (compare_itCount hcmp).trans ((congrArg (· + 1) hc).trans (compare_itCount hcmp').symm)
      obtain ⟨h1, h2, h3⟩ := ih h' e
      exact ⟨h1, h2, by rw [h3, e]⟩

theorem logs_prefix {it it' : IterCfg α} {t b : Vec α} {n k : Nat}
    {st1 st2 t1 b1 L1 t2 b2 L2} (h : Steps it body {} t b n st1 t1 b1 L1)
    (h' : Steps it' body {} t b k st2 t2 b2 L2) (hnk : n ≤ k) : L1 <+: L2 := by
  obtain ⟨_, _, _, L3, L4, h3, -, rfl⟩ := h'.split n hnk
  obtain ⟨-, -, rfl⟩ := h.agree h3 rfl
  exact List.prefix_append _ _

theorem map_enum_prefix {A B : Type} (g : Nat × A → B) {L L' : List A} (h : L <+: L') :
    (enum L).map g <+: (enum L').map g := by
  obtain ⟨M, rfl⟩ := h
  simp only [enum, List.zipIdx_append, List.map_append]
  exact List.prefix_append _ _

/-- **C69.** The same algorithm with two iterators of any kind: the partial results of one
are the first partial results of the other. -/
theorem C69_prefix (h10 : Arith.eq (Arith.ofNat 1 : α) (Arith.ofNat 0) = false)
    (l : List (S × V × X)) (am : Bool) (f : Option (V → X → X → Option α))
    (d : Dataset S V X α) (h : Dataset.mk' l am f = .ok d)
    (c : AlgCfg α) (it it' : IterCfg α) (fuel fuel' : Nat) (clock : Nat → α) (st st' : IterState α)
    (rs rs' : List (Result S V X α))
    (hr : (c.withIterator it).runIter d fuel clock st = .ok rs)
    (hr' : (c.withIterator it').runIter d fuel' clock st' = .ok rs') :
    rs <+: rs' ∨ rs' <+: rs := by
  obtain ⟨rfl, -, -⟩ := (mk'_ok_iff l h10 am f d).1 h
  rw [runIter_eq] at hr hr'
  cases he : (c.withIterator it).exec (matsOf l f) fuel st with
  | error e => rw [he] at hr; cases hr
  | ok r =>
  cases he' : (c.withIterator it').exec (matsOf l f) fuel' st' with
  | error e => rw [he'] at hr'; cases hr'
  | ok r' =>
    rw [he] at hr
    rw [he'] at hr'
    cases hr
    cases hr'
    obtain ⟨-, t0, b0, n, _, _, _, L, hi, -, hs, -, -, -, hlog⟩ := (exec_ok_iff _ _ _ _ _).1 he
    obtain ⟨-, t0', b0', k, _, _, _, L', hi', -, hs', -, -, -, hlog'⟩ := (exec_ok_iff _ _ _ _ _).1 he'
    cases hi.symm.trans hi'
    have hs : Steps it (c.kind.body (matsOf l f)) {} t0 b0 n _ _ _ L := hs
    have hs' : Steps it' (c.kind.body (matsOf l f)) {} t0 b0 k _ _ _ L' := hs'
    have key : ∀ {L L' : List (LogEntry α)}, L <+: L' →
        initLog (c.withIterator it) t0 b0 ++ L <+: initLog (c.withIterator it') t0 b0 ++ L' := by
      rintro L _ ⟨M, rfl⟩
      rw [← List.append_assoc]
      exact List.prefix_append _ _
    rw [hlog, hlog']
    rcases Nat.le_total n k with hnk | hnk
    · exact .inl (map_enum_prefix _ (key (logs_prefix hs hs' hnk)))
    · exact .inr (map_enum_prefix _ (key (logs_prefix hs' hs hnk)))

theorem steps_fixed {it : IterCfg α} {st st' : IterState α} {t b : Vec α} {n N : Nat}
    {st1 t1 b1 L1} (h : Steps it body st t b n st1 t1 b1 L1) (hc : st.itCount = st'.itCount)
    (hN : st'.itCount + n ≤ N) : ∃ st2, Steps (.fixed (N : Int)) body st' t b n st2 t1 b1 L1 := by
  induction h generalizing st' with
  | refl => exact ⟨_, .refl _ _ _⟩
  | @cons st t b s st1 n st'' t'' b'' L hf hb hcmp _ ih =>
    have e := compare_itCount hcmp
    obtain ⟨st2, h2⟩ := ih (st' := { st' with itCount := st'.itCount + 1 }) (by rw [e, hc])
      (by simp only; omega)
    refine ⟨st2, ?_⟩
    have := Steps.cons (it := .fixed (N : Int)) (st := st') (st' := { st' with itCount := st'.itCount + 1 })
      (by simp only [IterCfg.finished, Except.ok.injEq, decide_eq_false_iff_not]; omega) hb rfl h2
    rw [e, hc]
    exact this

theorem finish_other {c : AlgCfg α} (hk : c.kind ≠ .unboundedSums) (t b : Vec α) : c.finish t b = .ok (t, b) := by
  unfold AlgCfg.finish
  cases h : c.kind <;> simp_all

/-- **C69.** A run that took `n` iterations, with whatever iterator, can be repeated with
`FixedIterator(n)`: same result. -/
theorem C69_repeat (h10 : Arith.eq (Arith.ofNat 1 : α) (Arith.ofNat 0) = false)
    (l : List (S × V × X)) (am : Bool) (f : Option (V → X → X → Option α))
    (d : Dataset S V X α) (h : Dataset.mk' l am f = .ok d)
    (c : AlgCfg α) (hk : c.kind ≠ .unboundedSums) (fuel fuel' : Nat) (clock : Nat → α) (st st' : IterState α)
    (r : Result S V X α) (n : Nat) (hr : c.run d fuel clock st = .ok r) (hn : r.iterations = some n)
    (hf : n < fuel') :
    (c.withIterator (.fixed n)).run d fuel' clock st' = .ok r := by
  obtain ⟨rfl, -, -⟩ := (mk'_ok_iff l h10 am f d).1 h
  rw [run_eq] at hr ⊢
  cases he : c.exec (matsOf l f) fuel st with
  | error e => rw [he] at hr; cases hr
  | ok o =>
    rw [he] at hr
    cases hr
    obtain rfl : o.iterations = n := Option.some.inj hn
    obtain ⟨h0, t0, b0, n, st1, t, b, L, hi, -, hs, -, hfin, hit, hlog⟩ := (exec_ok_iff _ _ _ _ _).1 he
    have hfin' : ∀ it t b, (c.withIterator it).finish t b = .ok (t, b) :=
      fun it t b => finish_other (c := c.withIterator it) hk t b
    rw [finish_other hk] at hfin
    cases hfin
    subst hit
    obtain ⟨st2, h2⟩ := steps_fixed (N := o.iterations) (st' := {}) hs rfl (by simp)
    have hc2 := h2.itCount
    have : (c.withIterator (.fixed o.iterations)).exec (matsOf l f) fuel' st' = .ok o := by
      refine (exec_ok_iff _ _ _ _ _).2 ⟨h0, t0, b0, o.iterations, st2, o.trust, o.belief, L, hi, hf, h2, .inl ?_,
        hfin' _ _ _, rfl, hlog⟩
      simp only [AlgCfg.withIterator, IterCfg.finished, Except.ok.injEq, decide_eq_true_eq]
      rw [hc2]; simp
    rw [this]

theorem conv_looser {ms : Option Measure} {th th' : α} {lim lim' : Int}
    (hth : ∀ x, Arith.lt x th = true → Arith.lt x th' = true) (hlim : lim ≤ lim')
    {st : IterState α} {t b : Vec α} {n : Nat} {st1 t1 b1 L1}
    (h : Steps (.conv ms th lim) body st t b n st1 t1 b1 L1) (hs : Stops (.conv ms th lim) body st1 t1 b1) :
    ∃ j st2 t2 b2 L2, j ≤ n ∧ Steps (.conv ms th' lim') body st t b j st2 t2 b2 L2 ∧
      Stops (.conv ms th' lim') body st2 t2 b2 := by
  have hb : ∀ st : IterState α, st.below th = true → st.below th' = true := by
    intro st h
    unfold IterState.below at h ⊢
    split at h
    · exact hth _ h
    · cases h
  have hfin : ∀ {st : IterState α}, (IterCfg.conv ms th lim).finished st = .ok false →
      (IterCfg.conv ms th' lim').finished st = .ok true ∨ (IterCfg.conv ms th' lim').finished st = .ok false := by
    intro st h
    simp only [IterCfg.finished] at h ⊢
    by_cases h1 : st.below th' = true
    · rw [if_pos h1]; exact .inl rfl
    · have h2 : ¬ st.below th = true := fun h => h1 (hb _ h)
      rw [if_neg h2] at h
      split at h
      · cases h
      · rw [if_neg h1, if_neg (by omega)]; exact .inr rfl
  induction h with
  | refl st t b =>
    refine ⟨0, _, _, _, _, le_rfl, .refl _ _ _, ?_⟩
    rcases hs with h | ⟨h, h'⟩
    · left
      simp only [IterCfg.finished] at h ⊢
      split at h
      · rename_i h1; rw [if_pos (hb _ h1)]
      · split at h <;> cases h
    · rcases hfin h with h1 | h1
      · exact .inl h1
      · exact .inr ⟨h1, h'⟩
  | cons hf hbd hcmp _ ih =>
    rcases hfin hf with h1 | h1
    · exact ⟨0, _, _, _, _, Nat.zero_le _, .refl _ _ _, .inl h1⟩
    · obtain ⟨j, st2, t2, b2, L2, hj, h2, h3⟩ := ih hs
      exact ⟨j + 1, _, _, _, _, by omega, .cons h1 hbd hcmp h2, h3⟩

/-- **C69.** With a larger threshold (any number below the old one is below the new one) and
at least the same limit a run that converged still converges, after at most as many iterations;
its partial results are the first ones of the original run. -/
theorem C69_threshold (h10 : Arith.eq (Arith.ofNat 1 : α) (Arith.ofNat 0) = false)
    (l : List (S × V × X)) (am : Bool) (f : Option (V → X → X → Option α))
    (d : Dataset S V X α) (h : Dataset.mk' l am f = .ok d)
    (c : AlgCfg α) (ms : Option Measure) (th th' : α) (lim lim' : Int)
    (hth : ∀ x, Arith.lt x th = true → Arith.lt x th' = true) (hlim : lim ≤ lim')
    (fuel : Nat) (clock : Nat → α) (st : IterState α) (r : Result S V X α)
    (hr : (c.withIterator (.conv ms th lim)).run d fuel clock st = .ok r) :
    ∃ r' n n' rs rs', (c.withIterator (.conv ms th' lim')).run d fuel clock st = .ok r' ∧
      r.iterations = some n ∧ r'.iterations = some n' ∧ n' ≤ n ∧
      (c.withIterator (.conv ms th lim)).runIter d fuel clock st = .ok rs ∧
      (c.withIterator (.conv ms th' lim')).runIter d fuel clock st = .ok rs' ∧ rs' <+: rs := by
  obtain ⟨rfl, -, -⟩ := (mk'_ok_iff l h10 am f d).1 h
  have hk : c.kind ≠ .unboundedSums := by
    intro hk
    rw [run_eq] at hr
    split at hr
    · cases hr
    · rename_i o he
      obtain ⟨-, _, _, _, _, _, _, _, -, -, -, -, hf, -⟩ := (exec_ok_iff _ _ _ _ _).1 he
      simp [AlgCfg.finish, AlgCfg.withIterator, hk] at hf
  rw [run_eq] at hr
  cases he : (c.withIterator (.conv ms th lim)).exec (matsOf l f) fuel st with
  | error e => rw [he] at hr; cases hr
  | ok o =>
    rw [he] at hr
    cases hr
    obtain ⟨h0, t0, b0, n, st1, t, b, L, hi, hn, hs, hst, hfin, hit, hlog⟩ := (exec_ok_iff _ _ _ _ _).1 he
    have hs : Steps (.conv ms th lim) (c.kind.body (matsOf l f)) {} t0 b0 n st1 t b L := hs
    have hfin' : ∀ it t b, (c.withIterator it).finish t b = .ok (t, b) :=
      fun it t b => finish_other (c := c.withIterator it) hk t b
    obtain ⟨j, st2, t2, b2, L2, hj, h2, h3⟩ := conv_looser hth hlim hs hst
    have he' : (c.withIterator (.conv ms th' lim')).exec (matsOf l f) fuel st =
        .ok ⟨t2, b2, j, initLog c t0 b0 ++ L2⟩ :=
      (exec_ok_iff _ _ _ _ _).2 ⟨h0, t0, b0, j, st2, t2, b2, L2, hi, by omega, h2, h3,
        hfin' _ _ _, rfl, rfl⟩
    refine ⟨_, n, j, _, _, by rw [run_eq, he'], congrArg some hit, rfl, hj, by rw [runIter_eq, he],
      by rw [runIter_eq, he'], ?_⟩
    obtain ⟨M, hM⟩ := logs_prefix h2 hs hj
    rw [hlog, ← hM]
    refine map_enum_prefix _ ?_
    show initLog c t0 b0 ++ L2 <+: initLog c t0 b0 ++ (L2 ++ M)
    rw [← List.append_assoc]
    exact List.prefix_append _ _

/-- The hypothesis of `C69_threshold` on thresholds holds for numbers `a ≤ b`, for every
rounding. -/
theorem C69_larger {R : Rounding} {a b : ℝ} (h : a ≤ b) (x : FP R)
    (hx : Arith.lt x (FP.fin a : FP R) = true) : Arith.lt x (FP.fin b : FP R) = true := by
  have key : ∀ y : FNum, FNum.lt y (.fin a) = true → FNum.lt y (.fin b) = true := by
    intro y hy
    cases y with
    | nan => cases hy
    | pinf => simp [FNum.lt, FNum.toEReal] at hy
    | ninf => simp [FNum.lt, FNum.toEReal]
    | fin y =>
      simp only [FNum.lt, FNum.toEReal, decide_eq_true_eq, EReal.coe_lt_coe_iff] at hy ⊢
      exact lt_of_lt_of_le hy h
  exact key x hx

example : ∃ d : Dataset String String Nat Int, Dataset.mk' Toy.triples false none = .ok d ∧
    ∃ r, ((⟨.sums, .fixed 3, some .count⟩ : AlgCfg Int).withIterator (.conv (some .l1) 1 10)).run d 11 (fun _ => 0) = .ok r ∧
    r.iterations = some 3 ∧ ∀ x : Int, Arith.lt x 1 = true → Arith.lt x 4 = true := by
  refine ⟨_, rfl, _, rfl, rfl, ?_⟩
  intro x hx
  simp only [Arith.lt, decide_eq_true_eq] at hx ⊢
  omega

end TD
