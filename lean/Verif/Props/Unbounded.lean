import Verif.Lemmas.Unbounded
import Verif.Props.Algorithms
import Verif.Lemmas.Toy
/-!
# C37: UnboundedSums
-/

namespace TD
open Spec Ex
attribute [-instance] instBEqProd

variable {S V X : Type} [DecidableEq S] [DecidableEq V] [DecidableEq X]

/-- Without repeated (source, variable) pairs the constructor succeeds. -/
theorem exists_dataset (l : List (S × V × X)) (h : NoRepeats l) :
    ∃ d : Dataset S V X Ex, Dataset.mk' l false none = .ok d :=
  ⟨datasetOf l none, (mk'_ok_iff l ex_one_ne_zero false none _).2 ⟨rfl, .inr h, by simp [optImpBad]⟩⟩

/-- **C37.** When UnboundedSums (with its `OrdinalConvergenceIterator`) returns, it
reports the dense ranks of the `k`-th iterates of the unnormalised sums, where `k`
is the reported number of iterations; and `k` is the first number such that the
last `threshold` updates kept the ranking of the trust vector.  Neither depends on
the occasional division by 1000. -/
theorem C37_unbounded_sums (l : List (S × V × X)) (am : Bool) (f : Option (V → X → X → Option Ex))
    (d : Dataset S V X Ex) (h : Dataset.mk' l am f = .ok d) (hl : l ≠ []) (th : Int) (p : Prior)
    (fuel : Nat) (clock : Nat → Ex) (st : IterState Ex) (r : Result S V X Ex)
    (hr : (⟨.unboundedSums, .ord th, some p⟩ : AlgCfg Ex).run d fuel clock st = .ok r) :
    ∃ k, r.iterations = some k ∧ Reports l r (ranks l (usums l (priorOf l p) k)) ∧
      Settled l (priorOf l p) th k ∧ ∀ j, j < k → ¬ Settled l (priorOf l p) th j := by
  obtain rfl := mk'_ex h
  rw [run_eq] at hr
  cases he : (⟨.unboundedSums, .ord th, some p⟩ : AlgCfg Ex).exec (matsOf l f) fuel st with
  | error e => rw [he] at hr; simp at hr
  | ok out =>
    rw [he] at hr
    simp only [Except.ok.injEq] at hr
    subst hr
    have H := usums_implements hl f (.ord th) p
    obtain ⟨h1, -⟩ := H.exec_ok he
    obtain ⟨-, h2, h3⟩ := H.exec_traj (usums_traj p th) hl fuel st out he
    refine ⟨out.iterations, rfl, ?_, (usums_finished p th _).1.1 h2, fun j hj =>
      (usums_finished p th j).2.1 (h3 j hj)⟩
    rw [usums_finish] at h1
    simp only [Except.ok.injEq, Prod.mk.injEq] at h1
    rw [← h1.1, ← h1.2]
    exact reports_resultOf _ _ _ _

/-- **C37.** Conversely, it does return if the ranking settles. -/
theorem C37_returns (l : List (S × V × X)) (am : Bool) (f : Option (V → X → X → Option Ex))
    (d : Dataset S V X Ex) (h : Dataset.mk' l am f = .ok d) (hl : l ≠ []) (th : Int) (p : Prior)
    (k : Nat) (hk : Settled l (priorOf l p) th k) (fuel : Nat) (hfuel : k < fuel)
    (clock : Nat → Ex) (st : IterState Ex) :
    ∃ r, (⟨.unboundedSums, .ord th, some p⟩ : AlgCfg Ex).run d fuel clock st = .ok r := by
  obtain rfl := mk'_ex h
  have H := usums_implements hl f (.ord th) p
  obtain ⟨n, hn, hbef⟩ := exists_first ⟨k, hk⟩
  have hnk : n ≤ k := by
    by_contra hc
    exact hbef k (by omega) hk
  obtain ⟨r, hr, -⟩ := H.exec_of_traj (usums_traj p th) hl st (n := n) (fuel := fuel) (by omega)
    ((usums_finished p th n).1.2 hn) (fun i hi => (usums_finished p th i).2.2 (hbef i hi))
    (usums_finish p th n)
  rw [run_eq, hr]
  exact ⟨_, rfl⟩

/-- **C37.** The partial results of `run_iter` are the iterates themselves up to
positive factors. -/
theorem C37_partial_results (l : List (S × V × X)) (am : Bool)
    (f : Option (V → X → X → Option Ex)) (d : Dataset S V X Ex) (h : Dataset.mk' l am f = .ok d)
    (hl : l ≠ []) (it : IterCfg Ex) (p : Prior) (fuel : Nat) (clock : Nat → Ex) (st : IterState Ex)
    (rs : List (Result S V X Ex))
    (hr : (⟨.unboundedSums, it, some p⟩ : AlgCfg Ex).runIter d fuel clock st = .ok rs) (i : Nat)
    (r : Result S V X Ex) (hi : rs[i]? = some r) :
    ∃ a b : ℝ, 0 < a ∧ 0 < b ∧ Reports l r ((fun s => a * (usums l (priorOf l p) i).1 s),
      fun c => b * (usums l (priorOf l p) i).2 c) := by
  obtain rfl := mk'_ex h
  obtain ⟨a, b, ha, hb, e⟩ := usumsResc_iterate (l := l) (priorOf l p) i
  have := (usums_implements hl f it p).run_iter_reports hr i r hi
  simp only [Kind.logsInit, ↓reduceIte] at this
  rw [e] at this
  exact ⟨a, b, ha, hb, this⟩

/-- **C37.** With any other kind of iterator it never returns: a run that ends
without another exception raises `AttributeError`; with a fixed number of
iterations it always does. -/
theorem C37_other_iterator (l : List (S × V × X)) (am : Bool) (f : Option (V → X → X → Option Ex))
    (d : Dataset S V X Ex) (h : Dataset.mk' l am f = .ok d) (hl : l ≠ []) (it : IterCfg Ex)
    (hit : ∀ th, it ≠ .ord th) (p : Prior) (fuel : Nat) (clock : Nat → Ex) (st : IterState Ex) :
    (∀ r, (⟨.unboundedSums, it, some p⟩ : AlgCfg Ex).run d fuel clock st ≠ .ok r) ∧
    (∀ N : Nat, it = .fixed N → N < fuel →
      (⟨.unboundedSums, it, some p⟩ : AlgCfg Ex).run d fuel clock st = .error .attributeError) := by
  obtain rfl := mk'_ex h
  have hfin : ∀ t b, (⟨.unboundedSums, it, some p⟩ : AlgCfg Ex).finish t b = .error .attributeError := by
    intro t b
    unfold AlgCfg.finish
    cases it with
    | ord th => exact absurd rfl (hit th)
    | _ => rfl
  have H := usums_implements hl f it p
  constructor
  · intro r hr
    rw [run_eq] at hr
    cases he : (⟨.unboundedSums, it, some p⟩ : AlgCfg Ex).exec (matsOf l f) fuel st with
    | error e => rw [he] at hr; simp at hr
    | ok out =>
      have := (H.exec_ok he).1
      rw [hfin] at this
      simp at this
  · rintro N rfl hN
    rw [run_eq, exec_eq _ _ _ _ (Implements.numClaims_ne hl), H.init_eq]
    have ht : Implements.Traj ⟨.unboundedSums, .fixed N, some p⟩ l ((fun _ => 0), priorOf l p)
        (usumsResc l) (fun q => (q.1, sumTrust l q.2)) (fun k => ⟨k, none, 0⟩) :=
      ⟨rfl, fun i => rfl⟩
    obtain ⟨L, hL⟩ := H.traj_steps ht N 0 (by
      intro i _ hi
      simp only [IterCfg.finished, Except.ok.injEq, decide_eq_false_iff_not]
      omega)
    have hloop := (loop_ok_iff (it := .fixed N) (body := Kind.body .unboundedSums (matsOf l f)) fuel {}
        (repS l (fun _ => 0)) (repC l (priorOf l p))
        (initLog ⟨.unboundedSums, .fixed N, some p⟩ (repS l (fun _ => 0)) (repC l (priorOf l p)))
        ⟨_, _, _, _⟩).2 ⟨N, L, hN, hL, rfl, .inl (by simp [IterCfg.finished])⟩
    simp only [hloop, hfin]

/-- A concrete instance of the hypotheses. -/
example : ∃ d : Dataset String String Nat Ex, Dataset.mk' Toy.triples false none = .ok d :=
  exists_dataset _ (by decide)

end TD
