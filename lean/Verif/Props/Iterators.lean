import Verif.Spec.Calls
import Verif.Props.Runs
/-!
# C19, C20, C23: iterator objects used by themselves, with any calls, also ones that raise
-/

namespace TD
open Spec
variable {α : Type} [Arith α]

theorem stateAfter_concat (c : IterCfg α) (calls : List (Call α)) (call : Call α) :
    stateAfter c (calls ++ [call]) = match call with
      | .compare v w => c.after (stateAfter c calls) v w
      | .reset => c.reset (stateAfter c calls) := by
  unfold stateAfter
  rw [List.foldl_append]
  rfl

theorem sinceReset_concat (calls : List (Call α)) (call : Call α) :
    sinceReset (calls ++ [call]) = match call with
      | .compare v w => sinceReset calls ++ [(v, w)]
      | .reset => [] := by
  unfold sinceReset
  rw [List.foldl_append]
  rfl

theorem stateAfter_count (c : IterCfg α) (calls : List (Call α)) : (stateAfter c calls).itCount = (sinceReset calls).length := by
  induction calls using List.reverseRecOn with
  | nil => rfl
  | append_singleton calls call ih =>
    rw [stateAfter_concat, sinceReset_concat]
    cases call with
    | reset => rfl
    | compare v w =>
      simp only [List.length_append, List.length_singleton, ← ih]
      unfold IterCfg.after
      cases c with
      | fixed => rfl
      | conv m th limit =>
        simp only [IterCfg.compare, bind, Except.bind, pure, Except.pure]
        cases getDistance m v w <;> rfl
      | ord th =>
        simp only [IterCfg.compare, bind, Except.bind, pure, Except.pure]
        cases rankingVector v with
        | error => rfl
        | ok r1 => cases rankingVector w <;> rfl

/-- **C19.** After any calls, `finished()` of a `FixedIterator` tells whether there were `limit` comparisons since the last
reset. -/
theorem C19_calls (limit : Int) (calls : List (Call α)) :
    ∃ b, (IterCfg.fixed limit : IterCfg α).finished (stateAfter (.fixed limit) calls) = .ok b ∧
      (b = true ↔ limit ≤ (sinceReset calls).length) := by
  refine ⟨_, rfl, ?_⟩
  rw [stateAfter_count, decide_eq_true_eq]

theorem conv_completes (m : Option Measure) (th : α) (limit : Int) (s : IterState α) (v w : Vec α) :
    (∃ s', (IterCfg.conv m th limit).compare s v w = .ok s') ↔ ∃ d, getDistance m v w = .ok d := by
  simp only [IterCfg.compare, bind, Except.bind, pure, Except.pure]
  cases getDistance m v w with
  | error e => simp
  | ok d => simp

theorem stateAfter_dist (m : Option Measure) (th : α) (limit : Int) (calls : List (Call α)) :
    (stateAfter (.conv m th limit) calls).dist = (completed (.conv m th limit) (sinceReset calls)).getLast?.bind fun p =>
      (getDistance m p.1 p.2).toOption := by
  induction calls using List.reverseRecOn with
  | nil => rfl
  | append_singleton calls call ih =>
    rw [stateAfter_concat, sinceReset_concat]
    cases call with
    | reset => rfl
    | compare v w =>
      simp only
      unfold IterCfg.after
      cases hd : getDistance m v w with
      | error e =>
        have h1 : ∀ s, (IterCfg.conv m th limit).compare s v w = .error e := fun s => by
          simp only [IterCfg.compare, bind, Except.bind, hd]
        rw [h1]
        have h2 : completed (.conv m th limit) (sinceReset calls ++ [(v, w)]) = completed (.conv m th limit) (sinceReset calls) := by
          simp [completed, h1]
        rw [h2]
        exact ih
      | ok d =>
        have h1 : ∀ s, (IterCfg.conv m th limit).compare s v w = .ok { s with itCount := s.itCount + 1, dist := some d } := fun s => by
          simp only [IterCfg.compare, bind, Except.bind, hd, pure, Except.pure]
        rw [h1]
        have h2 : completed (.conv m th limit) (sinceReset calls ++ [(v, w)]) =
            completed (.conv m th limit) (sinceReset calls) ++ [(v, w)] := by
          simp [completed, h1]
        rw [h2, List.getLast?_concat]
        simp [hd, Except.toOption]

/-- **C20.** After any calls, `finished()` of a `ConvergenceIterator` is true iff the last comparison since the reset that did not
raise found a distance below the threshold; otherwise it raises `ConvergenceError` iff there were `limit` comparisons since
the reset (those that raised are counted), and is false if there were less. -/
theorem C20_calls (m : Option Measure) (th : α) (limit : Int) (calls : List (Call α)) :
    let c : IterCfg α := .conv m th limit
    let near := ∃ p d, (completed c (sinceReset calls)).getLast? = some p ∧ getDistance m p.1 p.2 = .ok d ∧ Arith.lt d th = true
    (c.finished (stateAfter c calls) = .ok true ↔ near) ∧
    (c.finished (stateAfter c calls) = .error .convergence ↔ ¬ near ∧ limit ≤ (sinceReset calls).length) ∧
    (c.finished (stateAfter c calls) = .ok false ↔ ¬ near ∧ (sinceReset calls).length < limit) := by
  intro c near
  have hb : (stateAfter c calls).below th = true ↔ near := by
    unfold IterState.below
    rw [stateAfter_dist]
    cases hl : (completed c (sinceReset calls)).getLast? with
    | none => simp [near, hl]
    | some p =>
      simp only [near, hl, Option.bind_some, Option.some.injEq]
      cases hd : getDistance m p.1 p.2 with
      | error e =>
        simp only [Except.toOption, Bool.false_eq_true, false_iff]
        rintro ⟨q, d, rfl, h, -⟩
        rw [hd] at h; cases h
      | ok d =>
        simp only [Except.toOption]
        constructor
        · intro h; exact ⟨p, d, rfl, hd, h⟩
        · rintro ⟨q, d', rfl, h, h'⟩
          rw [hd] at h; cases h; exact h'
  simp only [c, IterCfg.finished] at hb ⊢
  rw [stateAfter_count]
  by_cases hn : near
  · rw [if_pos (hb.2 hn)]
    simp [hn]
  · rw [if_neg (fun h => hn (hb.1 h))]
    by_cases hlim : limit ≤ (sinceReset calls).length
    · rw [if_pos hlim]
      simp [hn, hlim]
    · rw [if_neg hlim]
      simp only [hn, false_iff, reduceCtorEq, not_false_eq_true, true_and]
      exact ⟨by simp, by simpa using hlim, by simpa using hlim⟩

theorem stateAfter_fold (th : Int) (calls : List (Call α)) : ∃ n,
    ((completed (.ord th) (sinceReset calls)).foldlM (fun s p => (IterCfg.ord th).compare s p.1 p.2) ({} : IterState α)) =
      .ok { stateAfter (.ord th : IterCfg α) calls with itCount := n } := by
  induction calls using List.reverseRecOn with
  | nil => exact ⟨0, rfl⟩
  | append_singleton calls call ih =>
    rw [stateAfter_concat, sinceReset_concat]
    cases call with
    | reset => exact ⟨0, rfl⟩
    | compare v w =>
      obtain ⟨n, ih⟩ := ih
      simp only
      unfold IterCfg.after
      have hcmp : ∀ s : IterState α, (IterCfg.ord th).compare s v w =
          (match rankingVector v, rankingVector w with
            | .ok r1, .ok r2 => .ok { s with itCount := s.itCount + 1, count := if r1 = r2 then s.count + 1 else 0 }
            | .error e, _ => .error e
            | .ok _, .error e => .error e) := by
        intro s
        simp only [IterCfg.compare, bind, Except.bind, pure, Except.pure]
        cases rankingVector v with
        | error e => rfl
        | ok r1 => cases rankingVector w <;> rfl
      cases hv : rankingVector v with
      | error e =>
        have h1 : ∀ s : IterState α, (IterCfg.ord th).compare s v w = .error e := fun s => by rw [hcmp, hv]
        have h2 : completed (.ord th) (sinceReset calls ++ [(v, w)]) = completed (.ord th) (sinceReset calls) := by
          simp [completed, h1]
        rw [h2, h1]
        exact ⟨n, ih⟩
      | ok r1 =>
        cases hw : rankingVector w with
        | error e =>
          have h1 : ∀ s : IterState α, (IterCfg.ord th).compare s v w = .error e := fun s => by rw [hcmp, hv, hw]
          have h2 : completed (.ord th) (sinceReset calls ++ [(v, w)]) = completed (.ord th) (sinceReset calls) := by
            simp [completed, h1]
          rw [h2, h1]
          exact ⟨n, ih⟩
        | ok r2 =>
          have h1 : ∀ s : IterState α, (IterCfg.ord th).compare s v w =
              .ok { s with itCount := s.itCount + 1, count := if r1 = r2 then s.count + 1 else 0 } := fun s => by rw [hcmp, hv, hw]
          have h2 : completed (.ord th) (sinceReset calls ++ [(v, w)]) = completed (.ord th) (sinceReset calls) ++ [(v, w)] := by
            simp [completed, h1]
          rw [h2, h1, List.foldlM_append, ih]
          refine ⟨n + 1, ?_⟩
          simp only [bind, Except.bind, List.foldlM_cons, List.foldlM_nil, pure, Except.pure, h1]

/-- **C23.** After any calls, `finished()` of an `OrdinalConvergenceIterator` is true iff, of the comparisons since the reset that
did not raise, at least the last `threshold` found equal rankings. -/
theorem C23_calls (th : Int) (calls : List (Call α)) :
    let ps := completed (.ord th) (sinceReset calls)
    ∃ b, (IterCfg.ord th : IterCfg α).finished (stateAfter (.ord th) calls) = .ok b ∧
      (b = true ↔ ∃ k : Nat, th ≤ k ∧ k ≤ ps.length ∧ ∀ p ∈ ps.drop (ps.length - k), SameRanking p) := by
  intro ps
  obtain ⟨n, h⟩ := stateAfter_fold th calls
  obtain ⟨b, h1, h2⟩ := C23_ordinal_iterator th {} _ _ h
  exact ⟨b, h1, h2⟩

/-- A comparison that raises is counted by `finished` of the convergence iterator, and leaves the distance of the one before. -/
example : (IterCfg.conv none (5 : Int) 2).finished (stateAfter (.conv none (5 : Int) 2) [.compare [1] [2], .reset, .compare [1] [2]])
    = .ok false ∧
  (IterCfg.conv none (5 : Int) 2).finished (stateAfter (.conv none (5 : Int) 2) [.compare [1] [2], .compare [1] [2]])
    = .error .convergence := ⟨rfl, rfl⟩

example : (IterCfg.ord 2 : IterCfg Int).finished (stateAfter (.ord 2)
    [.compare [1, 2] [3, 4], .compare [1, 1] [3, 4], .compare [1, 2] [5, 6], .compare [1, 3] [5, 6]]) = .ok true ∧
  (IterCfg.ord 2 : IterCfg Int).finished (stateAfter (.ord 2)
    [.compare [1, 2] [3, 4], .compare [1, 3] [5, 6], .reset, .compare [1, 2] [3, 4]]) = .ok false := ⟨rfl, rfl⟩

end TD
