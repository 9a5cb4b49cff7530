import Verif.Lemmas.Refine
/-! Runs whose iterator goes through a known sequence of states. -/

namespace TD
open Spec Ex
attribute [-instance] instBEqProd

variable {S V X : Type} [DecidableEq S] [DecidableEq V] [DecidableEq X]
variable {c : AlgCfg Ex} {l : List (S × V × X)} {f : Option (V → X → X → Option Ex)}
  {init : Scores S V X} {step : Scores S V X → Scores S V X}
  {cmp : Scores S V X → (S → ℝ) × (S → ℝ)} {Inv : Scores S V X → Prop}

namespace Implements

/-- The iterator passes through the states `traj`. -/
def Traj (c : AlgCfg Ex) (l : List (S × V × X)) (init : Scores S V X)
    (step : Scores S V X → Scores S V X) (cmp : Scores S V X → (S → ℝ) × (S → ℝ))
    (traj : Nat → IterState Ex) : Prop :=
  traj 0 = {} ∧ ∀ i, c.iterator.compare (traj i) (repS l (cmp (step^[i] init)).1)
    (repS l (cmp (step^[i] init)).2) = .ok (traj (i + 1))

theorem steps_traj (H : Implements c l f init step cmp Inv) {traj : Nat → IterState Ex}
    (ht : Traj c l init step cmp traj) {j n : Nat} {st' t b L}
    (h : Steps c.iterator (c.kind.body (matsOf l f)) (traj j) (repS l (step^[j] init).1)
      (repC l (step^[j] init).2) n st' t b L) :
    st' = traj (j + n) ∧ ∀ i, j ≤ i → i < j + n → c.iterator.finished (traj i) = .ok false := by
  generalize h1 : traj j = st at h
  generalize h2 : repS l (step^[j] init).1 = t0 at h
  generalize h3 : repC l (step^[j] init).2 = b0 at h
  induction h generalizing j with
  | refl => exact ⟨h1.symm, fun i _ _ => by omega⟩
  | cons hf hb hc hs ih =>
    subst h1 h2 h3
    rw [H.body_eq _ (H.inv_iterate j)] at hb
    simp only [Except.ok.injEq, Option.some.injEq] at hb
    subst hb
    rw [ht.2 j] at hc
    simp only [Except.ok.injEq] at hc
    obtain ⟨e1, e2⟩ := ih (j := j + 1) hc (by rw [Function.iterate_succ_apply'])
      (by rw [Function.iterate_succ_apply'])
    refine ⟨by rw [e1]; congr 1; omega, ?_⟩
    intro i hi hlt
    by_cases hij : i = j
    · subst hij; exact hf
    · exact e2 i (by omega) (by omega)

theorem traj_steps (H : Implements c l f init step cmp Inv) {traj : Nat → IterState Ex}
    (ht : Traj c l init step cmp traj) (n : Nat) :
    ∀ j, (∀ i, j ≤ i → i < j + n → c.iterator.finished (traj i) = .ok false) →
      ∃ L, Steps c.iterator (c.kind.body (matsOf l f)) (traj j) (repS l (step^[j] init).1)
        (repC l (step^[j] init).2) n (traj (j + n)) (repS l (step^[j + n] init).1)
        (repC l (step^[j + n] init).2) L := by
  induction n with
  | zero => intro j _; exact ⟨[], .refl _ _ _⟩
  | succ n ih =>
    intro j hfin
    obtain ⟨L, hL⟩ := ih (j + 1) (fun i h1 h2 => hfin i (by omega) (by omega))
    rw [Function.iterate_succ_apply' step j init] at hL
    have := Steps.cons (hfin j (le_refl _) (by omega)) (H.body_eq _ (H.inv_iterate j)) (ht.2 j) hL
    rw [show j + (n + 1) = j + 1 + n by omega]
    exact ⟨_, this⟩

/-- A run succeeds exactly if the iterator finishes, and then the first time it
does. -/
theorem exec_traj (H : Implements c l f init step cmp Inv) {traj : Nat → IterState Ex}
    (ht : Traj c l init step cmp traj) (hl : l ≠ []) (fuel : Nat) (st : IterState Ex)
    (r : RunOut Ex) (h : c.exec (matsOf l f) fuel st = .ok r) :
    r.iterations < fuel ∧ c.iterator.finished (traj r.iterations) = .ok true ∧
    ∀ i, i < r.iterations → c.iterator.finished (traj i) = .ok false := by
  obtain ⟨h0, t0, b0, n, st', t, b, L, hi, hn, hs, hst, hf, hit, hlog⟩ :=
    (exec_ok_iff c (matsOf l f) fuel st r).1 h
  rw [H.init_eq] at hi
  simp only [Except.ok.injEq, Prod.mk.injEq] at hi
  obtain ⟨rfl, rfl⟩ := hi
  obtain ⟨rfl, rfl, -⟩ := H.steps_aux H.inv_init hs
  have hs' := hs
  rw [← ht.1] at hs
  obtain ⟨rfl, hfin⟩ := H.steps_traj ht (j := 0) hs
  rw [hit]
  refine ⟨hn, ?_, fun i hi => hfin i (Nat.zero_le _) (by omega)⟩
  rcases hst with h | ⟨-, h⟩
  · simpa using h
  · exact absurd h (H.no_early n)

theorem exec_of_traj (H : Implements c l f init step cmp Inv) {traj : Nat → IterState Ex}
    (ht : Traj c l init step cmp traj) (hl : l ≠ []) {fuel n : Nat} (st : IterState Ex)
    (hn : n < fuel) (hfin : c.iterator.finished (traj n) = .ok true)
    (hbef : ∀ i, i < n → c.iterator.finished (traj i) = .ok false) {t b : Vec Ex}
    (hf : c.finish (repS l (step^[n] init).1) (repC l (step^[n] init).2) = .ok (t, b)) :
    ∃ r, c.exec (matsOf l f) fuel st = .ok r ∧ r.iterations = n ∧ r.trust = t ∧ r.belief = b := by
  obtain ⟨L, hL⟩ := H.traj_steps ht n 0 (fun i _ h => hbef i (by omega))
  simp only [Nat.zero_add] at hL
  rw [ht.1] at hL
  refine ⟨⟨t, b, n, initLog c (repS l init.1) (repC l init.2) ++ L⟩, ?_, rfl, rfl, rfl⟩
  rw [exec_ok_iff]
  exact ⟨numClaims_ne hl, _, _, n, _, _, _, L, H.init_eq, hn, hL, .inl hfin, hf, rfl, rfl⟩

end Implements

/-- The first index at which a predicate holds. -/
theorem exists_first {P : Nat → Prop} (h : ∃ n, P n) : ∃ n, P n ∧ ∀ i, i < n → ¬ P i := by
  classical
  exact ⟨Nat.find h, Nat.find_spec h, fun i hi => Nat.find_min h hi⟩

end TD
