import Verif.Model.Client
import Verif.Model.Float
import Verif.Lemmas.Toy
import Verif.Lemmas.Firsts
import Mathlib.Data.EReal.Operations
/-!
# C60: the reported time

`clock k` is the `k`-th reading of `time.time()` during a call: reading 0 is taken
before the algorithm starts.
-/

namespace TD

variable {S V X : Type} [DecidableEq S] [DecidableEq V] [DecidableEq X]

/-- **C60.** The time reported by `run`, of any algorithm, is the reading of the clock
after the computation minus the reading before it. -/
theorem C60_run_time {α : Type} [Arith α] (a : AnyAlg α) (D : Dataset S V X α) (fuel : Nat)
    (clock : Nat → α) (r : Result S V X α) (h : a.run D fuel clock = .ok r) :
    r.time = clock 1 -. clock 0 := by
  cases a with
  | voting =>
    simp only [AnyAlg.run, votingRun, bind, Except.bind, pure, Except.pure] at h
    split at h; · cases h
    split at h; · cases h
    split at h; · cases h
    split at h; · cases h
    cases h; rfl
  | iter c =>
    simp only [AnyAlg.run, AlgCfg.run, bind, Except.bind, pure, Except.pure] at h
    split at h; · cases h
    split at h; · cases h
    split at h; · cases h
    cases h; rfl

theorem mapM_getElem {β γ : Type} {g : β → Except PyErr γ} {L : List β} {rs : List γ}
    (h : L.mapM g = .ok rs) : ∀ (i : Nat) r, rs[i]? = some r → ∃ p, L[i]? = some p ∧ g p = .ok r := by
  induction L generalizing rs with
  | nil => simp at h; cases h; simp
  | cons p L ih =>
    rw [List.mapM_cons] at h
    simp only [bind, Except.bind, pure, Except.pure] at h
    cases hp : g p with
    | error e => rw [hp] at h; cases h
    | ok x =>
      rw [hp] at h
      cases hL : L.mapM g with
      | error e => rw [hL] at h; cases h
      | ok xs =>
        rw [hL] at h
        cases h
        intro i r hr
        cases i with
        | zero => simp at hr; exact ⟨p, rfl, by rw [hp, hr]⟩
        | succ i => simpa using ih hL i r (by simpa using hr)

theorem enum_getElem_fst {β : Type} {L : List β} {i : Nat} {p : Nat × β} (h : (enum L)[i]? = some p) :
    p.1 = i := by
  unfold enum at h
  rw [List.getElem?_map, List.getElem?_zipIdx] at h
  cases hl : L[i]? with
  | none => rw [hl] at h; cases h
  | some e => rw [hl] at h; cases h; simp

/-- **C60.** The `i`-th partial result of `run_iter` reports the time between the
first reading and the one taken when the result was logged. -/
theorem C60_iter_time {α : Type} [Arith α] (c : AlgCfg α) (D : Dataset S V X α) (fuel : Nat)
    (clock : Nat → α) (st : IterState α) (rs : List (Result S V X α))
    (h : c.runIter D fuel clock st = .ok rs) (i : Nat) (r : Result S V X α) (hr : rs[i]? = some r) :
    r.time = clock (i + 1) -. clock 0 := by
  simp only [AlgCfg.runIter, bind, Except.bind] at h
  split at h; · cases h
  obtain ⟨p, hp, hg⟩ := mapM_getElem h i r hr
  have hi : p.1 = i := enum_getElem_fst hp
  simp only [bind, Except.bind, pure, Except.pure] at hg
  split at hg; · cases hg
  split at hg; · cases hg
  cases hg
  rw [hi]

/-- Difference of two finite floats. -/
theorem fp_sub_fin (R : Rounding) (x y : ℝ) : ((FP.fin x : FP R) -. FP.fin y) = R.rnd (x - y) := by
  show FNum.add R (FNum.fin x) (FNum.neg (FNum.fin y)) = _
  simp [FNum.neg, FNum.add, sub_eq_add_neg]

/-- **C60.** If the clock readings are finite and the clock does not go back, no
reported time is negative (or NaN), whatever the rounding, and the times of the
partial results of `run_iter` never decrease. -/
theorem C60_nonneg (R : Rounding) (t : Nat → ℝ) (ht : Monotone t) :
    (∀ (a : AnyAlg (FP R)) (D : Dataset S V X (FP R)) (fuel : Nat) (r : Result S V X (FP R)),
      a.run D fuel (fun k => FP.fin (t k)) = .ok r → r.time ≠ FP.nan ∧ 0 ≤ FP.val r.time) ∧
    (∀ (c : AlgCfg (FP R)) (D : Dataset S V X (FP R)) (fuel : Nat) (st : IterState (FP R))
      (rs : List (Result S V X (FP R))), c.runIter D fuel (fun k => FP.fin (t k)) st = .ok rs →
      rs.Pairwise (fun r r' => FP.val r.time ≤ FP.val r'.time) ∧
      ∀ r ∈ rs, r.time ≠ FP.nan ∧ 0 ≤ FP.val r.time) := by
  have hpos : ∀ k, (R.rnd (t k - t 0)) ≠ FNum.nan ∧ 0 ≤ (R.rnd (t k - t 0)).toEReal := by
    intro k
    refine ⟨R.notNan _, ?_⟩
    have := R.mono 0 (t k - t 0) (sub_nonneg.2 (ht (Nat.zero_le k)))
    rw [R.zero] at this
    simpa [FNum.toEReal] using this
  constructor
  · intro a D fuel r h
    rw [C60_run_time a D fuel _ r h, fp_sub_fin]
    exact hpos 1
  · intro c D fuel st rs h
    have htime := C60_iter_time c D fuel _ st rs h
    refine ⟨?_, ?_⟩
    · rw [List.pairwise_iff_getElem]
      intro i j hi hj hij
      rw [htime i _ (List.getElem?_eq_getElem hi), htime j _ (List.getElem?_eq_getElem hj),
        fp_sub_fin, fp_sub_fin]
      refine R.mono _ _ (sub_le_sub_right (ht ?_) _)
      omega
    · intro r hr
      obtain ⟨i, hi, rfl⟩ := List.getElem_of_mem hr
      rw [htime i _ (List.getElem?_eq_getElem hi), fp_sub_fin]
      exact hpos (i + 1)

open Toy in
/-- A run whose clock reads 5 and then 9. -/
example : ∃ (d : Dataset String String Nat Int) (r : Result String String Nat Int),
    Dataset.mk' (α := Int) [("a", "x", 1), ("b", "x", 2)] false none = .ok d ∧
    (AnyAlg.voting).run d 0 (fun k => if k = 0 then 5 else 9) = .ok r ∧ r.time = 4 := by
  refine ⟨_, _, rfl, rfl, rfl⟩

end TD
