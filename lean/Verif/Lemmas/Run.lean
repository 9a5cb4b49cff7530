import Verif.Lemmas.Exec
import Verif.Lemmas.Dicts

namespace TD
open Spec
attribute [-instance] instBEqProd
variable {S V X α : Type} [DecidableEq S] [DecidableEq V] [DecidableEq X] [Arith α]

/-- Result with labels for score vectors. -/
def resultOf (l : List (S × V × X)) (t b : Vec α) (time : α) (it : Option Nat) : Result S V X α :=
  ⟨(sources l).zip t, beliefOf (claims l) b, time, it⟩

theorem labels_ok (l : List (S × V × X)) (f : Option (V → X → X → Option α)) {t b : Vec α}
    (h : Sized (matsOf l f) t b) :
    (datasetOf l f).trustDict t = .ok ((sources l).zip t) ∧
    (datasetOf l f).beliefDict b = .ok (beliefOf (claims l) b) := by
  have h1 : t.length = (sources l).length := h.1
  have h2 : b.length = (claims l).length := h.2
  refine ⟨trustDict_eq l f t (by omega), ?_⟩
  rw [beliefDict_eq l f b (by omega), h2, List.take_length]

theorem run_eq (c : AlgCfg α) (l : List (S × V × X)) (f : Option (V → X → X → Option α))
    (fuel : Nat) (clock : Nat → α) (st : IterState α) :
    c.run (datasetOf l f) fuel clock st = match c.exec (matsOf l f) fuel st with
      | .error e => .error e
      | .ok r => .ok (resultOf l r.trust r.belief (clock 1 -. clock 0) (some r.iterations)) := by
  unfold AlgCfg.run
  have hm : (datasetOf l f).mats = matsOf l f := rfl
  rw [hm]
  cases h : c.exec (matsOf l f) fuel st with
  | error e => rfl
  | ok r =>
    obtain ⟨h1, h2⟩ := labels_ok l f (exec_sized (matsOf_wf l f) h).1
    simp [h1, h2, bind, Except.bind, pure, Except.pure, resultOf]

theorem logResults_eq (l : List (S × V × X)) (f : Option (V → X → X → Option α))
    (clock : Nat → α) (log : List (LogEntry α))
    (h : ∀ e ∈ log, Sized (matsOf l f) e.trust e.belief) :
    logResults (datasetOf l f) clock log = .ok ((enum log).map fun p =>
      resultOf l p.2.trust p.2.belief (clock (p.1 + 1) -. clock 0) (some p.2.iterations)) := by
  unfold logResults
  have hmem : ∀ p ∈ enum log, Sized (matsOf l f) p.2.trust p.2.belief := by
    intro p hp
    apply h
    simp only [enum, List.mem_map] at hp
    obtain ⟨q, hq, rfl⟩ := hp
    exact List.fst_mem_of_mem_zipIdx hq
  generalize enum log = E at hmem ⊢
  induction E with
  | nil => rfl
  | cons p ps ih =>
    obtain ⟨h1, h2⟩ := labels_ok l f (hmem p (by simp))
    rw [List.mapM_cons, ih (fun q hq => hmem q (by simp [hq]))]
    simp [h1, h2, bind, Except.bind, pure, Except.pure, resultOf]

theorem runIter_eq (c : AlgCfg α) (l : List (S × V × X)) (f : Option (V → X → X → Option α))
    (fuel : Nat) (clock : Nat → α) (st : IterState α) :
    c.runIter (datasetOf l f) fuel clock st = match c.exec (matsOf l f) fuel st with
      | .error e => .error e
      | .ok r => .ok ((enum r.log).map fun p =>
          resultOf l p.2.trust p.2.belief (clock (p.1 + 1) -. clock 0) (some p.2.iterations)) := by
  unfold AlgCfg.runIter
  have hm : (datasetOf l f).mats = matsOf l f := rfl
  rw [hm]
  cases h : c.exec (matsOf l f) fuel st with
  | error e => rfl
  | ok r =>
    simp only [bind, Except.bind]
    exact logResults_eq l f clock r.log (exec_sized (matsOf_wf l f) h).2

theorem claims_eq_nil (l : List (S × V × X)) : claims l = [] ↔ l = [] := by
  constructor
  · intro h
    by_contra hl
    cases l with
    | nil => exact hl rfl
    | cons t l =>
      have : t.2 ∈ claims (t :: l) :=
        (mem_claims _).2 ⟨t, by simp [recorded, firstsBy], rfl⟩
      simp [h] at this
  · rintro rfl; rfl

theorem numClaims_zero (l : List (S × V × X)) (f : Option (V → X → X → Option α)) :
    (matsOf l f).numClaims = 0 ↔ l = [] := by
  rw [← claims_eq_nil]
  simp [matsOf]

/-- The exec outcome does not depend on the initial iterator state. -/
theorem exec_state_irrelevant (c : AlgCfg α) (m : Mats α) (fuel : Nat) (st st' : IterState α) :
    c.exec m fuel st = c.exec m fuel st' := by
  by_cases h : m.numClaims = 0
  · rw [exec_empty _ _ _ _ h, exec_empty _ _ _ _ h]
  · rw [exec_eq _ _ _ _ h, exec_eq _ _ _ _ h]

end TD
