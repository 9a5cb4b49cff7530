import Verif.Model.Matrix
import Verif.Lemmas.Text
import Verif.Lemmas.Build
import Mathlib.Data.List.Nodup
import Mathlib.Data.List.Flatten

namespace TD
open Spec
variable {X α : Type}

/-- Meaning of a field whose text parses. -/
def cellOf (parse : Text → Parsed X) (val : Text) : Option X :=
  if val.isEmpty then none
  else match parse val with
    | .num x => some x
    | _ => none

/-- A field that does not parse. -/
def badCell (parse : Text → Parsed X) (val : Text) : Prop := val ≠ [] ∧ parse val = .bad

theorem csvCell_eq (parse : Text → Parsed X) (val : Text) :
    (badCell parse val ∧ csvCell parse val = .error .valueError) ∨
    (¬ badCell parse val ∧ csvCell parse val = .ok (cellOf parse val)) := by
  unfold badCell csvCell cellOf
  cases val with
  | nil => right; simp
  | cons c cs => cases h : parse (c :: cs) <;> simp

theorem mapM_csvCell (parse : Text → Parsed X) (row : List Text) :
    ((∃ v ∈ row, badCell parse v) ∧ row.mapM (csvCell parse) = .error .valueError) ∨
    ((∀ v ∈ row, ¬ badCell parse v) ∧ row.mapM (csvCell parse) = .ok (row.map (cellOf parse))) := by
  induction row with
  | nil => right; exact ⟨by simp, rfl⟩
  | cons v row ih =>
    rw [List.mapM_cons]
    rcases csvCell_eq parse v with ⟨h1, h2⟩ | ⟨h1, h2⟩
    · left
      exact ⟨⟨v, by simp, h1⟩, by rw [h2]; rfl⟩
    · rcases ih with ⟨⟨w, hw, hb⟩, h3⟩ | ⟨h3, h4⟩
      · left
        exact ⟨⟨w, by simp [hw], hb⟩, by rw [h2, h3]; rfl⟩
      · right
        refine ⟨?_, by rw [h2, h4]; rfl⟩
        intro w hw
        rcases List.mem_cons.1 hw with rfl | hw
        · exact h1
        · exact h3 w hw

/-- What the row loop does after the first row. -/
theorem csvFold (parse : Text → Parsed X) (lines : List Text) (w : Nat) (g : Grid X) :
    let rows := lines.map fun line => (split ',' line).map strip
    ((∃ r ∈ rows, r.length ≠ w ∨ ∃ v ∈ r, badCell parse v) ∧
      lines.foldlM (csvLine parse) (some w, g) = .error .valueError) ∨
    ((∀ r ∈ rows, r.length = w ∧ ∀ v ∈ r, ¬ badCell parse v) ∧
      lines.foldlM (csvLine parse) (some w, g) = .ok (some w, g ++ rows.map (·.map (cellOf parse)))) := by
  intro rows
  induction lines generalizing g with
  | nil => right; refine ⟨by simp [rows], by simp [rows]; rfl⟩
  | cons line lines ih =>
    simp only [rows, List.map_cons, List.foldlM_cons]
    set row := (split ',' line).map strip with hrow
    by_cases hw : row.length = w
    · rcases mapM_csvCell parse row with ⟨h1, h2⟩ | ⟨h1, h2⟩
      · left
        refine ⟨⟨row, by simp, Or.inr h1⟩, ?_⟩
        have : csvLine parse (some w, g) line = .error .valueError := by
          simp only [csvLine, ← hrow, hw, ne_eq, not_true_eq_false, if_false, bind, Except.bind,
            pure, Except.pure]
          rw [h2]
        rw [this]; rfl
      · have : csvLine parse (some w, g) line = .ok (some w, g ++ [row.map (cellOf parse)]) := by
          simp only [csvLine, ← hrow, hw, ne_eq, not_true_eq_false, if_false, bind, Except.bind,
            pure, Except.pure]
          rw [h2]
        rw [this]
        simp only [bind, Except.bind]
        rcases ih (g ++ [row.map (cellOf parse)]) with ⟨⟨r, hr, hb⟩, h4⟩ | ⟨h3, h4⟩
        · left
          exact ⟨⟨r, by simp [hr], hb⟩, h4⟩
        · right
          refine ⟨?_, by rw [h4]; simp⟩
          intro r hr
          rcases List.mem_cons.1 hr with rfl | hr
          · exact ⟨hw, h1⟩
          · exact h3 r hr
    · left
      refine ⟨⟨row, by simp, Or.inl hw⟩, ?_⟩
      have : csvLine parse (some w, g) line = .error .valueError := by
        simp only [csvLine, ← hrow, hw, ne_eq, not_false_eq_true, if_true, bind, Except.bind,
          throw, throwThe, MonadExceptOf.throw]
      rw [this]; rfl

/-- The whole parser in terms of the table of fields. -/
theorem csvToMasked_eq (parse : Text → Parsed X) (text : Text) (fields : List (List Text))
    (h : Table text fields) :
    ((∃ r ∈ fields, (∃ r0 ∈ fields.head?, r.length ≠ r0.length) ∨ ∃ v ∈ r, badCell parse v) ∧
      csvToMasked parse text = .error .valueError) ∨
    ((∀ r ∈ fields, (∀ r0 ∈ fields.head?, r.length = r0.length) ∧ ∀ v ∈ r, ¬ badCell parse v) ∧
      csvToMasked parse text = .ok (fields.map (·.map (cellOf parse)))) := by
  rw [table_iff] at h
  subst h
  unfold csvToMasked
  cases hl : split '\n' (strip text) with
  | nil => exact absurd hl (split_ne_nil _ _)
  | cons line lines =>
    simp only [List.map_cons, List.foldlM_cons, List.head?_cons, Option.mem_def, Option.some.injEq,
      exists_eq_left', forall_eq']
    set row := (split ',' line).map strip with hrow
    rcases mapM_csvCell parse row with ⟨h1, h2⟩ | ⟨h1, h2⟩
    · left
      refine ⟨⟨row, by simp, Or.inr h1⟩, ?_⟩
      have : csvLine parse (none, []) line = .error .valueError := by
        simp only [csvLine, ← hrow, bind, Except.bind, pure, Except.pure]
        rw [h2]
      rw [this]; rfl
    · have : csvLine parse (none, []) line = .ok (some row.length, [row.map (cellOf parse)]) := by
        simp only [csvLine, ← hrow, bind, Except.bind, pure, Except.pure]
        rw [h2]; rfl
      rw [this]
      rcases csvFold parse lines row.length [row.map (cellOf parse)] with ⟨⟨r, hr, hb⟩, h4⟩ | ⟨h3, h4⟩
      · left
        refine ⟨⟨r, by simp only [List.mem_cons]; exact Or.inr hr, hb⟩, ?_⟩
        simp only [bind, Except.bind, h4]
      · right
        refine ⟨?_, by simp only [bind, Except.bind, h4]; rfl⟩
        intro r hr
        rcases List.mem_cons.1 hr with rfl | hr
        · exact ⟨rfl, h1⟩
        · exact h3 r hr

theorem mem_enum' {B : Type} {bs : List B} {p : Nat × B} : p ∈ enum bs ↔ bs[p.1]? = some p.2 := by
  simp only [enum, List.mem_map]
  constructor
  · rintro ⟨q, hq, rfl⟩
    exact List.mem_zipIdx_iff_getElem?.1 hq
  · intro h
    exact ⟨(p.2, p.1), List.mem_zipIdx_iff_getElem?.2 h, rfl⟩

theorem mem_getTriples (g : Grid X) (i j : Nat) (v : X) :
    (i, j, v) ∈ getTriples g ↔ ∃ row, g[i]? = some row ∧ row[j]? = some (some v) := by
  simp only [getTriples, List.mem_flatMap, List.mem_filterMap, Option.map_eq_some_iff]
  constructor
  · rintro ⟨p, hp, q, hq, w, hw, e⟩
    simp only [Prod.mk.injEq] at e
    obtain ⟨rfl, rfl, rfl⟩ := e
    exact ⟨p.2, mem_enum'.1 hp, by rw [mem_enum'.1 hq, hw]⟩
  · rintro ⟨row, h1, h2⟩
    exact ⟨(i, row), mem_enum'.2 h1, (j, some v), mem_enum'.2 h2, v, rfl, rfl⟩

theorem nodup_enum_fst {B : Type} (bs : List B) : ((enum bs).map Prod.fst).Nodup := by
  have : (enum bs).map Prod.fst = List.range bs.length := by
    simp [enum, Function.comp_def, List.zipIdx_map_snd]
    rw [List.range_eq_range']
  rw [this]; exact List.nodup_range

theorem noRepeats_getTriples (g : Grid X) : NoRepeats (getTriples g) := by
  unfold NoRepeats getTriples
  rw [List.map_flatMap, List.nodup_flatMap]
  constructor
  · intro p _
    rw [List.map_filterMap]
    have h1 : ((enum p.2).map fun q => (p.1, q.1)).Nodup := by
      have := (nodup_enum_fst p.2).map (f := fun j => (p.1, j)) (by intro a b h; simpa using h)
      simpa [Function.comp_def] using this
    refine List.Nodup.sublist ?_ h1
    rw [← List.filterMap_eq_map]
    have : ∀ (E : List (Nat × Option X)),
        (E.filterMap fun q => Option.map (fun t => (t.1, t.2.1)) (q.2.map fun v => (p.1, q.1, v))).Sublist
          (E.filterMap (some ∘ fun q => (p.1, q.1))) := by
      intro E
      induction E with
      | nil => simp
      | cons q E ih =>
        rcases q with ⟨j, _ | v⟩
        · simp only [List.filterMap_cons, Option.map_none, Function.comp_apply]
          exact ih.cons _
        · simp only [List.filterMap_cons, Option.map_some, Function.comp_apply]
          exact ih.cons_cons _
    exact this _
  · have h2 : (enum g).Pairwise fun p q => p.1 ≠ q.1 := by
      have := nodup_enum_fst g
      rw [List.nodup_iff_pairwise_ne, List.pairwise_map] at this
      exact this
    refine h2.imp ?_
    intro p q hpq
    simp only [Function.onFun, List.disjoint_left]
    intro a ha hb
    simp only [List.mem_map, List.mem_filterMap, Option.map_eq_some_iff] at ha hb
    obtain ⟨t, ⟨_, _, _, _, e1⟩, rfl⟩ := ha
    obtain ⟨u, ⟨_, _, _, _, e2⟩, e3⟩ := hb
    subst e1; subst e2
    simp at e3
    exact hpq e3.1.symm

end TD
