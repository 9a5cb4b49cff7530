import Verif.Props.Client
/-!
# C14 for results with any scores

The theorems of `Verif/Props/Supervised.lean` are about results whose most believed
values are defined.  Here that is derived: it is the case whenever no known variable has
an empty dictionary of beliefs, whatever the scores (NaN included).
-/

namespace TD
open Spec
attribute [-instance] instBEqProd

variable {S V X : Type} [DecidableEq S] [DecidableEq V] [DecidableEq X] {R : Rounding}

theorem best_of_counted (r : Result S V X (FP R)) (values : Dict V X)
    (hne : ∀ p ∈ values, ∀ d, r.belief.get? p.1 = some d → d ≠ []) :
    ∀ p ∈ counted r values, ∃ best, r.mostBelieved p.1 = .ok best ∧ best ≠ [] := by
  intro p hp
  obtain ⟨h1, h2⟩ := List.mem_filter.1 hp
  cases hd : r.belief.get? p.1 with
  | none => simp [hd] at h2
  | some d => exact mostBelieved_nonempty r hd (hne p h1 d hd)

/-- **C14**, any scores: if no known variable has an empty dictionary of beliefs,
`get_accuracy` raises `ValueError` iff no known variable is counted, and otherwise
returns hits / counted for some selection of most believed values, a number in
`[0, 1]`. -/
theorem C14_any (r : Result S V X (FP R)) (values : Dict V X)
    (hne : ∀ p ∈ values, ∀ d, r.belief.get? p.1 = some d → d ≠ [])
    (pick : Nat → Nat → Nat) :
    (getAccuracy values pick r = .error .valueError ↔ counted r values = []) ∧
    (counted r values ≠ [] → ∃ chosen a, Selects r (counted r values) chosen ∧
      getAccuracy values pick r = .ok a ∧
      a = Arith.lit (hits (counted r values) chosen) (counted r values).length ∧
      a ≠ FP.nan ∧ 0 ≤ FP.val a ∧ FP.val a ≤ 1) := by
  have hb := best_of_counted r values hne
  obtain ⟨h1, h2⟩ := C14_accuracy r values hb pick
  refine ⟨⟨?_, h1⟩, ?_⟩
  · intro he
    by_contra hc
    obtain ⟨chosen, -, h3⟩ := h2 hc
    rw [he] at h3; cases h3
  · intro hc
    obtain ⟨chosen, h3, h4⟩ := h2 hc
    exact ⟨chosen, _, h3, h4, rfl, C14_in_unit_interval R r values hb pick _ h4⟩

/-- **C14**, the remaining results: if some known variable has an empty dictionary of
beliefs (no run produces one, `C51_runs`), then `get_accuracy` raises `IndexError`. -/
theorem C14_empty_dictionary (r : Result S V X (FP R)) (values : Dict V X)
    (pick : Nat → Nat → Nat) (p : V × X) (hp : p ∈ values) (he : r.belief.get? p.1 = some []) :
    getAccuracy values pick r = .error .indexError := by
  have hstep : ∀ (q : V × X) (s : Nat × Nat × Nat),
      (∃ s', accuracyStep pick r s q = .ok s') ∨ accuracyStep pick r s q = .error .indexError := by
    intro q s
    unfold accuracyStep
    cases hd : r.belief.get? q.1 with
    | none => exact .inl ⟨_, rfl⟩
    | some d =>
      by_cases h1 : d.length = 1
      · exact .inl ⟨s, by simp [h1]⟩
      · cases hdd : d with
        | nil =>
          right
          simp [Result.mostBelieved, Dict.get, hd, hdd, pySorted, bind, Except.bind, throw,
      throwThe, MonadExceptOf.throw]
        | cons x xs =>
          obtain ⟨best, hb, hbn⟩ := mostBelieved_nonempty r hd (by rw [hdd]; simp)
          have hlen : 0 < best.length := List.length_pos_iff.2 hbn
          have hlt : pick s.2.2 best.length % best.length < best.length := Nat.mod_lt _ hlen
          left
          rw [hdd] at h1
          simp only [h1, if_false, hb, bind, Except.bind, List.getElem?_eq_getElem hlt]
          exact ⟨_, rfl⟩
  have hbad : ∀ s, accuracyStep pick r s p = .error .indexError := by
    intro s
    unfold accuracyStep
    simp [Result.mostBelieved, Dict.get, he, pySorted, bind, Except.bind, throw,
      throwThe, MonadExceptOf.throw]
  have hfold : ∀ (vs : Dict V X) (s : Nat × Nat × Nat), p ∈ vs →
      vs.foldlM (accuracyStep pick r) s = .error .indexError := by
    intro vs
    induction vs with
    | nil => intro s h; cases h
    | cons q vs ih =>
      intro s h
      rw [List.foldlM_cons]
      rcases List.mem_cons.1 h with rfl | h
      · rw [hbad]; rfl
      · rcases hstep q s with ⟨s', h'⟩ | h'
        · rw [h']; exact ih s' h
        · rw [h']; rfl
  unfold getAccuracy
  have hv : values.isEmpty = false := by cases values with
    | nil => cases hp
    | cons _ _ => rfl
  simp only [hv, Bool.false_eq_true, if_false, hfold values _ hp, bind, Except.bind]

/-- A result with a NaN belief and two known variables, one of them counted. -/
noncomputable def nanResult : Result Nat Nat Nat (FP .exact) :=
  ⟨[], [(0, [(5, FP.nan), (6, FP.nan)]), (1, [(7, FP.nan)])], FP.fin 0, none⟩

example (pick : Nat → Nat → Nat) : ∃ chosen a,
    Selects nanResult (counted nanResult [(0, 5), (1, 7)]) chosen ∧
    getAccuracy [(0, 5), (1, 7)] pick nanResult = .ok a ∧ a ≠ FP.nan := by
  have hc : counted nanResult [(0, 5), (1, 7)] ≠ [] := by
    have : counted nanResult [(0, 5), (1, 7)] = [(0, 5)] := rfl
    rw [this]; simp
  obtain ⟨chosen, a, h1, h2, -, h3, -⟩ := (C14_any nanResult [(0, 5), (1, 7)] (by
    intro p hp d hd
    simp only [List.mem_cons, List.not_mem_nil, or_false] at hp
    rcases hp with rfl | rfl <;> (cases hd; simp)) pick).2 hc
  exact ⟨chosen, a, h1, h2, h3⟩

end TD
