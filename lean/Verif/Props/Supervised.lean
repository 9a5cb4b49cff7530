import Verif.Spec.Accuracy
import Verif.Props.Matrix
import Verif.Props.Results
/-!
# C13, C14: supervised data
-/

namespace TD
open Spec
attribute [-instance] instBEqProd

/-! ### C13 -/
section
variable {X α : Type} [DecidableEq X] [Arith α]

omit [DecidableEq X] [Arith α] in
theorem present_sublist (E : List (Nat × Option X)) :
    ((E.filterMap fun p => p.2.map fun v => (p.1, v)).map Prod.fst).Sublist (E.map Prod.fst) := by
  induction E with
  | nil => simp
  | cons q E ih =>
    rcases q with ⟨j, _ | v⟩
    · simp only [List.filterMap_cons, Option.map_none, List.map_cons]
      exact ih.cons _
    · simp only [List.filterMap_cons, Option.map_some, List.map_cons]
      exact ih.cons_cons _

/-- **C13.** If the text parses as a matrix with rows `row, rest`, the true values
are exactly the present entries of the first row, keyed by column number, and the
dataset is that of the remaining rows as a matrix of their own (so sources are
numbered from 0). -/
theorem C13_first_row_is_truth (h10 : Arith.eq (Arith.ofNat 1 : α) (Arith.ofNat 0) = false)
    (parse : Text → Parsed X) (text : Text) (row : List (Option X)) (rest : Grid X)
    (h : csvToMasked parse text = .ok (row :: rest)) :
    ∃ (s : SupervisedMatrix X α),
      SupervisedMatrix.fromCsv parse text = .ok s ∧
      MatrixDataset.mk' (.two rest) = .ok s.data ∧ s.data.sv = rest ∧
      (∀ j v, s.values.get? j = some v ↔ row[j]? = some (some v)) := by
  obtain ⟨md, l, h1, h2, -⟩ := C10_claims_are_cells (α := α) h10 rest false
  refine ⟨⟨md, Dict.ofPairs ((enum row).filterMap fun p => p.2.map fun v => (p.1, v))⟩, ?_, h1, h2, ?_⟩
  · simp [SupervisedMatrix.fromCsv, h, h1]
  · intro j v
    have hnd := (nodup_enum_fst row).sublist (present_sublist (enum row))
    rw [ofPairs_nodup hnd]
    have : Dict.get? ((enum row).filterMap fun p => p.2.map fun v => (p.1, v)) j = some v ↔
        (j, v) ∈ (enum row).filterMap fun p => p.2.map fun v => (p.1, v) := lookup_eq_some_iff hnd
    rw [this]
    simp only [List.mem_filterMap, Option.map_eq_some_iff]
    constructor
    · rintro ⟨p, hp, w, hw, e⟩
      simp only [Prod.mk.injEq] at e
      obtain ⟨rfl, rfl⟩ := e
      rw [mem_enum'.1 hp, hw]
    · intro hj
      exact ⟨(j, some v), mem_enum'.2 hj, v, rfl, rfl⟩

/-- **C13.** A text that does not parse as a matrix raises `ValueError`. -/
theorem C13_errors (parse : Text → Parsed X) (text : Text) (e : PyErr)
    (h : csvToMasked parse text = .error e) :
    (SupervisedMatrix.fromCsv parse text : Except PyErr (SupervisedMatrix X α)) =
      .error .valueError := by
  have := (C12_outcome parse text _ (table_iff.2 rfl)).2.1 e h
  subst this
  simp [SupervisedMatrix.fromCsv, h]

omit [DecidableEq X] [Arith α] in
/-- **C13.** A text that parses always has a first row (so the two theorems above
cover every text; `IndexError` cannot happen). -/
theorem C13_has_first_row (parse : Text → Parsed X) (text : Text) (g : Grid X)
    (h : csvToMasked parse text = .ok g) : g ≠ [] := by
  obtain ⟨fields, hf, -⟩ := C12_table_unique text
  have h2 := (C12_outcome parse text fields hf).2.2 g h
  obtain ⟨u, lines, -, hl, hr⟩ := hf
  rintro rfl
  cases h2
  cases hr
  cases hl

open Toy in
example : ∃ s : SupervisedMatrix (Fin 10) Int,
    SupervisedMatrix.fromCsv parseDigit "1,,3\n1,2,\n,2,4\n".toList = .ok s ∧
    s.values.get? 2 = some 3 ∧ s.values.get? 1 = none ∧ s.data.sv.length = 2 := by
  obtain ⟨s, h1, -, h2, h3⟩ := C13_first_row_is_truth (α := Int) one_ne_zero parseDigit
    "1,,3\n1,2,\n,2,4\n".toList [some 1, none, some 3] [[some 1, some 2, none], [none, some 2, some 4]]
    (by decide)
  refine ⟨s, h1, (h3 2 3).2 rfl, ?_, by rw [h2]; rfl⟩
  cases h : s.values.get? 1 with
  | none => rfl
  | some v => have := (h3 1 v).1 h; simp at this

end

/-! ### C14 -/
section
variable {S V X α : Type} [DecidableEq S] [DecidableEq V] [DecidableEq X] [Arith α]

theorem accuracy_fold (r : Result S V X α) (values : Dict V X)
    (hbest : ∀ p ∈ counted r values, ∃ best, r.mostBelieved p.1 = .ok best ∧ best ≠ [])
    (pick : Nat → Nat → Nat) (t c k : Nat) :
    ∃ chosen, Selects r (counted r values) chosen ∧
      values.foldlM (accuracyStep pick r) (t, c, k) =
        .ok (t + (counted r values).length, c + hits (counted r values) chosen,
          k + (counted r values).length) := by
  induction values generalizing t c k with
  | nil => exact ⟨[], .nil, by simp [counted, hits]; rfl⟩
  | cons p values ih =>
    rw [List.foldlM_cons]
    by_cases hp : p ∈ counted r (p :: values)
    · obtain ⟨best, hb, hne⟩ := hbest p hp
      have hc : counted r (p :: values) = p :: counted r values := by
        unfold counted at hp ⊢
        rw [List.filter_cons_of_pos]
        exact (List.mem_filter.1 hp).2
      have hlen : 0 < best.length := List.length_pos_iff.2 hne
      have hlt : pick k best.length % best.length < best.length := Nat.mod_lt _ hlen
      have hstep : accuracyStep pick r (t, c, k) p =
          .ok (t + 1, if best[pick k best.length % best.length] = p.2 then c + 1 else c, k + 1) := by
        have h2 := (List.mem_filter.1 hp).2
        unfold accuracyStep
        cases hd : r.belief.get? p.1 with
        | none => simp [hd] at h2
        | some d =>
          simp only [hd] at h2 ⊢
          simp only [ne_eq, decide_not, Bool.not_eq_eq_eq_not, Bool.not_true,
            decide_eq_false_iff_not] at h2
          simp only [h2, if_false, hb, bind, Except.bind, List.getElem?_eq_getElem hlt]
          rfl
      obtain ⟨chosen, h3, h4⟩ := ih (fun q hq => hbest q (by rw [hc]; simp [hq])) (t + 1)
        (if best[pick k best.length % best.length] = p.2 then c + 1 else c) (k + 1)
      refine ⟨best[pick k best.length % best.length] :: chosen, ?_, ?_⟩
      · rw [hc]
        exact .cons ⟨best, hb, List.getElem_mem hlt⟩ h3
      · rw [hstep]
        simp only [bind, Except.bind]
        rw [h4, hc]
        simp only [List.length_cons, hits, List.zip_cons_cons]
        congr 2
        · omega
        · congr 1
          · by_cases h : best[pick k best.length % best.length] = p.2
            · simp [h]; omega
            · simp [h]
          · omega
    · have hc : counted r (p :: values) = counted r values := by
        unfold counted at hp ⊢
        rw [List.filter_cons_of_neg]
        intro h; exact hp (List.mem_filter.2 ⟨by simp, h⟩)
      have hstep : accuracyStep pick r (t, c, k) p = .ok (t, c, k) := by
        unfold accuracyStep
        cases hd : r.belief.get? p.1 with
        | none => rfl
        | some d =>
          by_cases h1 : d.length = 1
          · simp [h1]
          · exfalso
            apply hp
            unfold counted
            rw [List.mem_filter]
            exact ⟨by simp, by simp [hd, h1]⟩
      rw [hstep, hc]
      simp only [bind, Except.bind]
      exact ih (fun q hq => hbest q (by rw [hc]; exact hq)) t c k

/-- **C14.** `get_accuracy` raises `ValueError` iff no known variable is counted,
and never anything else; otherwise it returns hits / counted for some selection of
most believed values (the random choices). -/
theorem C14_accuracy (r : Result S V X α) (values : Dict V X)
    (hbest : ∀ p ∈ counted r values, ∃ best, r.mostBelieved p.1 = .ok best ∧ best ≠ [])
    (pick : Nat → Nat → Nat) :
    (counted r values = [] → getAccuracy values pick r = .error .valueError) ∧
    (counted r values ≠ [] → ∃ chosen, Selects r (counted r values) chosen ∧
      getAccuracy values pick r =
        .ok (Arith.lit (hits (counted r values) chosen) (counted r values).length)) := by
  obtain ⟨chosen, h1, h2⟩ := accuracy_fold r values hbest pick 0 0 0
  simp only [Nat.zero_add] at h2
  constructor
  · intro h0
    unfold getAccuracy
    by_cases hv : values.isEmpty
    · simp [hv, bind, Except.bind, throw, throwThe, MonadExceptOf.throw]
    · simp only [hv, Bool.false_eq_true, if_false, bind, Except.bind, pure, Except.pure, h2, h0,
        List.length_nil, if_true]
      rfl
  · intro h0
    refine ⟨chosen, h1, ?_⟩
    have hv : values.isEmpty = false := by
      cases values with
      | nil => simp [counted] at h0
      | cons p vs => rfl
    unfold getAccuracy
    have hl : (counted r values).length ≠ 0 := by simpa using h0
    simp only [hv, Bool.false_eq_true, if_false, bind, Except.bind, pure, Except.pure, h2, hl]

omit [Arith α] in
theorem hits_le (ps : List (V × X)) (chosen : List X) : hits ps chosen ≤ ps.length := by
  unfold hits
  refine (List.length_filter_le _ _).trans ?_
  simp

/-- **C14.** The accuracy is a number in [0, 1], also with rounding. -/
theorem C14_in_unit_interval (R : Rounding) (r : Result S V X (FP R)) (values : Dict V X)
    (hbest : ∀ p ∈ counted r values, ∃ best, r.mostBelieved p.1 = .ok best ∧ best ≠ [])
    (pick : Nat → Nat → Nat) (a : FP R) (h : getAccuracy values pick r = .ok a) :
    a ≠ FP.nan ∧ 0 ≤ FP.val a ∧ FP.val a ≤ 1 := by
  have h1 := C14_accuracy r values hbest pick
  by_cases h0 : counted r values = []
  · rw [h1.1 h0] at h; cases h
  · obtain ⟨chosen, -, h2⟩ := h1.2 h0
    rw [h2] at h
    cases h
    have hn : (0 : ℝ) < (counted r values).length := by
      exact_mod_cast List.length_pos_iff.2 h0
    have hle : ((hits (counted r values) chosen : Int) : ℝ) ≤ (counted r values).length := by
      exact_mod_cast hits_le _ _
    refine ⟨R.notNan _, ?_, ?_⟩
    · have := R.mono 0 (((hits (counted r values) chosen : Int) : ℝ) / (counted r values).length)
        (by positivity)
      rw [R.zero] at this
      exact this
    · have := R.mono (((hits (counted r values) chosen : Int) : ℝ) / (counted r values).length) 1
        ((div_le_one hn).2 hle)
      rw [R.one] at this
      exact this

/-- **C14.** Without ties (every counted variable has exactly one most believed
value) the accuracy does not depend on the random choices. -/
theorem C14_no_ties (r : Result S V X α) (values : Dict V X) (best : V → X)
    (hb : ∀ p ∈ counted r values, r.mostBelieved p.1 = .ok [best p.1]) (pick : Nat → Nat → Nat) :
    counted r values ≠ [] → getAccuracy values pick r =
      .ok (Arith.lit ((counted r values).filter fun p => best p.1 = p.2).length
        (counted r values).length) := by
  intro h0
  obtain ⟨chosen, h1, h2⟩ := (C14_accuracy r values
    (fun p hp => ⟨_, hb p hp, by simp⟩) pick).2 h0
  rw [h2]
  have : ∀ (ps : List (V × X)) (chosen : List X), (∀ p ∈ ps, r.mostBelieved p.1 = .ok [best p.1]) →
      Selects r ps chosen → hits ps chosen = (ps.filter fun p => best p.1 = p.2).length := by
    intro ps chosen hb hs
    induction hs with
    | nil => rfl
    | @cons p x ps xs hx hs ih =>
      obtain ⟨b, hb1, hb2⟩ := hx
      rw [hb p (by simp)] at hb1
      cases hb1
      have hx : x = best p.1 := by simpa using hb2
      subst hx
      have ih' := ih (fun q hq => hb q (by simp [hq]))
      unfold hits at ih' ⊢
      simp only [List.zip_cons_cons, List.filter_cons]
      by_cases h : best p.1 = p.2 <;> simp [h, ih']
  rw [this _ _ hb h1]

/-- **C14.** If the true value is the only most believed one of each counted
variable the accuracy is 1; if it is never among them it is 0. -/
theorem C14_extremes (R : Rounding) (r : Result S V X (FP R)) (values : Dict V X)
    (hbest : ∀ p ∈ counted r values, ∃ best, r.mostBelieved p.1 = .ok best ∧ best ≠ [])
    (h0 : counted r values ≠ []) (pick : Nat → Nat → Nat) :
    ((∀ p ∈ counted r values, r.mostBelieved p.1 = .ok [p.2]) →
      getAccuracy values pick r = .ok (FP.fin 1)) ∧
    ((∀ p ∈ counted r values, ∀ best, r.mostBelieved p.1 = .ok best → p.2 ∉ best) →
      getAccuracy values pick r = .ok (FP.fin 0)) := by
  obtain ⟨chosen, h1, h2⟩ := (C14_accuracy r values hbest pick).2 h0
  have hn : ((counted r values).length : ℝ) ≠ 0 := by simpa using h0
  rw [h2]
  constructor
  · intro hall
    have : ∀ (ps : List (V × X)) (chosen : List X), (∀ p ∈ ps, r.mostBelieved p.1 = .ok [p.2]) →
        Selects r ps chosen → hits ps chosen = ps.length := by
      intro ps chosen hb hs
      induction hs with
      | nil => rfl
      | @cons p x ps xs hx hs ih =>
        obtain ⟨b, hb1, hb2⟩ := hx
        rw [hb p (by simp)] at hb1
        cases hb1
        have hx : x = p.2 := by simpa using hb2
        have ih' := ih (fun q hq => hb q (by simp [hq]))
        unfold hits at ih' ⊢
        simp [hx, ih']
    rw [this _ _ hall h1]
    show Except.ok (R.rnd _) = _
    have e : (((counted r values).length : Int) : ℝ) / ((counted r values).length : ℝ) = 1 := by
      push_cast; exact div_self hn
    rw [e, R.one]; rfl
  · intro hall
    have : ∀ (ps : List (V × X)) (chosen : List X),
        (∀ p ∈ ps, ∀ best, r.mostBelieved p.1 = .ok best → p.2 ∉ best) →
        Selects r ps chosen → hits ps chosen = 0 := by
      intro ps chosen hb hs
      induction hs with
      | nil => rfl
      | @cons p x ps xs hx hs ih =>
        obtain ⟨b, hb1, hb2⟩ := hx
        have hx : x ≠ p.2 := fun e => hb p (by simp) b hb1 (e ▸ hb2)
        have ih' := ih (fun q hq => hb q (by simp [hq]))
        unfold hits at ih' ⊢
        simp [hx, ih']
    rw [this _ _ hall h1]
    show Except.ok (R.rnd _) = _
    simp [R.zero]; rfl

open Toy in
/-- Two counted variables (one with a tie), one with a single value, one unknown. -/
example : let r : Result String String Nat Int :=
      ⟨[], [("x", [(1, 5), (2, 3)]), ("y", [(1, 4), (2, 4)]), ("z", [(9, 1)])], 0, none⟩
    let values : Dict String Nat := [("x", 1), ("y", 2), ("z", 8), ("w", 1)]
    counted r values = [("x", 1), ("y", 2)] ∧
    (∀ p ∈ counted r values, ∃ best, r.mostBelieved p.1 = .ok best ∧ best ≠ []) ∧
    Selects r (counted r values) [1, 1] ∧ hits (counted r values) [1, 1] = 1 := by
  intro r values
  have hc : counted r values = [("x", 1), ("y", 2)] := by decide
  have hx : r.mostBelieved "x" = .ok [1] := by decide
  have hy : r.mostBelieved "y" = .ok [1, 2] := by decide
  rw [hc]
  refine ⟨rfl, ?_, ?_, by decide⟩
  · intro p hp
    simp only [List.mem_cons, List.not_mem_nil, or_false] at hp
    rcases hp with rfl | rfl
    · exact ⟨_, hx, by simp⟩
    · exact ⟨_, hy, by simp⟩
  · exact .cons ⟨_, hx, by simp⟩ (.cons ⟨_, hy, by simp⟩ .nil)

end
end TD
