import Verif.Spec.Matrix
import Verif.Lemmas.Matrix
import Verif.Lemmas.Mats
import Verif.Lemmas.Toy
/-!
# C10-C12: matrix datasets and CSV

`X` is the type of numbers that are not NaN.
-/

namespace TD
open Spec
attribute [-instance] instBEqProd

variable {X α : Type} [DecidableEq X] [Arith α]

/-! ### C10 -/

theorem getTriples_sorted (g : Grid X) :
    (getTriples g).Pairwise fun a b => a.1 < b.1 ∨ a.1 = b.1 ∧ a.2.1 < b.2.1 := by
  have enum_lt : ∀ {B : Type} (bs : List B), (enum bs).Pairwise fun p q => p.1 < q.1 := by
    intro B bs
    have : ((enum bs).map Prod.fst).Pairwise (· < ·) := by
      have h : (enum bs).map Prod.fst = List.range bs.length := by
        simp [enum, Function.comp_def, List.zipIdx_map_snd]
        rw [List.range_eq_range']
      rw [h]; exact List.pairwise_lt_range
    rwa [List.pairwise_map] at this
  unfold getTriples
  rw [List.flatMap_def, List.pairwise_flatten]
  constructor
  · intro L hL
    simp only [List.mem_map] at hL
    obtain ⟨p, _, rfl⟩ := hL
    rw [List.pairwise_filterMap]
    refine (enum_lt p.2).imp ?_
    rintro ⟨j, _ | v⟩ ⟨k, _ | w⟩ h <;> simp_all
  · rw [List.pairwise_map]
    refine (enum_lt g).imp ?_
    intro p q hpq a ha b hb
    simp only [List.mem_filterMap, Option.map_eq_some_iff] at ha hb
    obtain ⟨_, _, _, _, rfl⟩ := ha
    obtain ⟨_, _, _, _, rfl⟩ := hb
    exact Or.inl hpq

/-- **C10.** A two dimensional matrix is always accepted (without an implication
function), and the dataset is that of the present entries read row by row, each a
triple (row number, column number, entry): its recorded claims are exactly the
present entries, its sources the non-empty rows in order, its variables the
non-empty columns. -/
theorem C10_claims_are_cells (h10 : Arith.eq (Arith.ofNat 1 : α) (Arith.ofNat 0) = false)
    (g : Grid X) (am : Bool) :
    ∃ (md : MatrixDataset X α) (l : List (Nat × Nat × X)),
      MatrixDataset.mk' (.two g) am none = .ok md ∧ md.sv = g ∧
      Dataset.mk' l am none = .ok md.data ∧
      (∀ i j v, (i, j, v) ∈ l ↔ Holds g i j v) ∧
      (l.Pairwise fun a b => a.1 < b.1 ∨ a.1 = b.1 ∧ a.2.1 < b.2.1) ∧
      recorded l = l ∧
      (∀ i, i ∈ sources l ↔ ∃ j v, Holds g i j v) ∧
      (sources l).Pairwise (· < ·) ∧
      (∀ j, j ∈ vars l ↔ ∃ i v, Holds g i j v) := by
  have hn := noRepeats_getTriples g
  refine ⟨⟨g, datasetOf (getTriples g) none⟩, getTriples g, ?_, rfl, ?_, mem_getTriples g,
    getTriples_sorted g, ?_, ?_, ?_, ?_⟩
  · have := (mk'_ok_iff (getTriples g) h10 am none (datasetOf (getTriples g) none)).2
      ⟨rfl, Or.inr hn, by simp [optImpBad]⟩
    simp only [MatrixDataset.mk', this, bind, Except.bind, pure, Except.pure]
  · exact (mk'_ok_iff _ h10 am none _).2 ⟨rfl, Or.inr hn, by simp [optImpBad]⟩
  · exact firstsBy_eq_self hn
  · intro i
    rw [mem_sources]
    constructor
    · rintro ⟨⟨i, j, v⟩, ht, rfl⟩; exact ⟨j, v, (mem_getTriples g _ _ _).1 ht⟩
    · rintro ⟨j, v, h⟩; exact ⟨(i, j, v), (mem_getTriples g _ _ _).2 h, rfl⟩
  · have h1 : ((getTriples g).map fun t => t.1).Pairwise (· ≤ ·) := by
      rw [List.pairwise_map]
      exact (getTriples_sorted g).imp fun h => by omega
    have hs : (sources (getTriples g)).Sublist ((getTriples g).map fun t => t.1) := by
      unfold sources firsts
      generalize ((getTriples g).map fun t => t.1) = L
      induction L with
      | nil => exact List.Sublist.slnil
      | cons a L ih => exact (List.filter_sublist.trans ih).cons_cons a
    have h2 := h1.sublist hs
    exact (h2.and (nodup_sources (getTriples g))).imp fun h => by
      have := h.1; have := h.2; omega
  · intro j
    rw [mem_vars]
    constructor
    · rintro ⟨⟨i, j, v⟩, ht, rfl⟩; exact ⟨i, v, (mem_getTriples g _ _ _).1 ht⟩
    · rintro ⟨i, v, h⟩; exact ⟨(i, j, v), (mem_getTriples g _ _ _).2 h, rfl⟩

/-- **C10.** Whatever the implication function, a matrix never leads to the
duplicate-claim error; any array that is not two dimensional is a `ValueError`. -/
theorem C10_no_duplicates (g : Grid X) (am : Bool) (f : Option (Nat → X → X → Option α)) :
    (∀ s v, MatrixDataset.mk' (.two g) am f ≠ .error (.multiple s v)) ∧
    MatrixDataset.mk' (X := X) .otherDim am f = .error (.py .valueError) := by
  refine ⟨?_, rfl⟩
  intro s v h
  have hn := noRepeats_getTriples g
  have hrun : Build.run am (getTriples g) = .ok (buildOf (getTriples g)) := by
    cases am
    · exact run_false _ hn
    · exact run_true _
  simp only [MatrixDataset.mk', Dataset.mk', hrun, bind, Except.bind] at h
  have himp : (buildOf (getTriples g)).impMat f ≠ .error (.multiple s v) := by
    cases f with
    | none => rw [impMat_none]; simp
    | some f =>
      intro he
      have hf : ∀ L acc, List.foldlM ((buildOf (getTriples g)).impStep f) acc L ≠
          .error (.multiple s v) := by
        intro L
        induction L with
        | nil => intro acc; simp [pure, Except.pure]
        | cons e L ih =>
          intro acc
          rw [List.foldlM_cons]
          have hstep : (buildOf (getTriples g)).impStep f acc e ≠ .error (.multiple s v) := by
            unfold Build.impStep
            split
            · simp [pure, Except.pure]
            · have hl : ∀ {β : Type} (x : Except PyErr β) (k : β → Except (DatasetErr Nat Nat) _),
                  (∀ b, k b ≠ .error (.multiple s v)) →
                  (liftPy (S := Nat) (V := Nat) x >>= k) ≠
                    (.error (.multiple s v) : Except _ (List (Nat × Nat × α))) := by
                intro β x k hk
                cases x with
                | error e => simp [liftPy, bind, Except.bind]
                | ok b => simpa [liftPy, bind, Except.bind] using hk b
              refine hl _ _ fun c1 => hl _ _ fun c2 => hl _ _ fun var => hl _ _ fun v1 =>
                hl _ _ fun v2 => ?_
              split
              · simp [pure, Except.pure]
              · split
                · simp [throw, throwThe, MonadExceptOf.throw]
                · simp [pure, Except.pure]
          cases hx : (buildOf (getTriples g)).impStep f acc e with
          | error er =>
            simp only [bind, Except.bind]
            intro h'; cases h'; exact hstep hx
          | ok a => simpa [bind, Except.bind] using ih a
      simp only [Build.impMat, bind, Except.bind] at he
      cases hx : List.foldlM ((buildOf (getTriples g)).impStep f) []
          ((buildOf (getTriples g)).mutExMat (α := α)).nonzero with
      | error er => rw [hx] at he; simp only at he; cases he; exact hf _ _ hx
      | ok a => rw [hx] at he; simp only at he; split at he <;> simp [pure, Except.pure] at he
  cases hx : (buildOf (getTriples g)).impMat f with
  | error er => rw [hx] at h; simp only at h; cases h; exact himp hx
  | ok a => rw [hx] at h; simp only [pure, Except.pure] at h; cases h

/-! ### C12 -/

omit [DecidableEq X] [Arith α] in
/-- **C12.** Every text has exactly one table of fields. -/
theorem C12_table_unique (text : Text) : ∃! fields, Table text fields := by
  refine ⟨_, table_iff.2 rfl, ?_⟩
  intro f' h
  exact (table_iff.1 h).symm

omit [DecidableEq X] [Arith α] in
/-- **C12.** `csv_to_masked_array` raises `ValueError` iff a row of the table has a
different number of fields than the first or a non-blank field is not a number;
otherwise it returns the matrix with one row per row of the table and one entry per
field, missing exactly where the field is blank or NaN. -/
theorem C12_outcome (parse : Text → Parsed X) (text : Text) (fields : List (List Text))
    (h : Table text fields) :
    (csvToMasked parse text = .error .valueError ↔
      (∃ r0 ∈ fields.head?, ∃ r ∈ fields, r.length ≠ r0.length) ∨
      (∃ r ∈ fields, ∃ v ∈ r, v ≠ [] ∧ parse v = .bad)) ∧
    (∀ e, csvToMasked parse text = .error e → e = .valueError) ∧
    (∀ g, csvToMasked parse text = .ok g →
      List.Forall₂ (List.Forall₂ (FieldMeans parse)) fields g) := by
  have hcell : ∀ v, ¬ badCell parse v → FieldMeans parse v (cellOf parse v) := by
    intro v hv
    unfold FieldMeans cellOf badCell at *
    cases v with
    | nil => left; simp
    | cons c cs =>
      right
      refine ⟨by simp, ?_⟩
      cases hp : parse (c :: cs) with
      | bad => simp [hp] at hv
      | nan => left; simp
      | num x => right; exact ⟨x, rfl, by simp⟩
  rcases csvToMasked_eq parse text fields h with ⟨⟨r, hr, hb⟩, h2⟩ | ⟨h1, h2⟩
  · rw [h2]
    refine ⟨⟨fun _ => ?_, fun _ => rfl⟩, ?_, ?_⟩
    · rcases hb with ⟨r0, h0, hne⟩ | ⟨v, hv, hb⟩
      · exact Or.inl ⟨r0, h0, r, hr, hne⟩
      · exact Or.inr ⟨r, hr, v, hv, hb⟩
    · intro e he; cases he; rfl
    · intro g hg; cases hg
  · rw [h2]
    refine ⟨⟨nofun, ?_⟩, ?_, ?_⟩
    · rintro (⟨r0, h0, r, hr, hne⟩ | ⟨r, hr, v, hv, hb⟩)
      · exact absurd ((h1 r hr).1 r0 h0) hne
      · exact absurd hb ((h1 r hr).2 v hv)
    · intro e he; cases he
    · intro g hg
      cases hg
      rw [List.forall₂_map_right_iff, List.forall₂_same]
      intro r hr
      rw [List.forall₂_map_right_iff, List.forall₂_same]
      intro v hv
      exact hcell v ((h1 r hr).2 v hv)

omit [DecidableEq X] [Arith α] in
/-- **C12.** Whitespace around the text, and around fields, does not matter: texts
with the same table of fields have the same outcome, and adding whitespace around
the text does not change the table. -/
theorem C12_whitespace (parse : Text → Parsed X) (text text' : Text) (fields : List (List Text))
    (h : Table text fields) :
    (Table text' fields → csvToMasked parse text' = csvToMasked parse text) ∧
    (∀ a b, (∀ c ∈ a, isBlank c = true) → (∀ c ∈ b, isBlank c = true) →
      Table (a ++ text ++ b) fields) := by
  constructor
  · intro h'
    rcases csvToMasked_eq parse text fields h with ⟨⟨r, hr, hb⟩, h2⟩ | ⟨h1, h2⟩ <;>
    rcases csvToMasked_eq parse text' fields h' with ⟨⟨r', hr', hb'⟩, h2'⟩ | ⟨h1', h2'⟩
    · rw [h2, h2']
    · rcases hb with ⟨r0, h0, hne⟩ | ⟨v, hv, hb⟩
      · exact absurd ((h1' r hr).1 r0 h0) hne
      · exact absurd hb ((h1' r hr).2 v hv)
    · rcases hb' with ⟨r0, h0, hne⟩ | ⟨v, hv, hb⟩
      · exact absurd ((h1 r' hr').1 r0 h0) hne
      · exact absurd hb ((h1 r' hr').2 v hv)
    · rw [h2, h2']
  · intro a b ha hb
    obtain ⟨u, lines, ⟨⟨a', b', rfl, ha', hb'⟩, h1, h2⟩, h3⟩ := h
    refine ⟨u, lines, ⟨⟨a ++ a', b' ++ b, by simp, ?_, ?_⟩, h1, h2⟩, h3⟩
    · intro c hc
      rcases List.mem_append.1 hc with h | h
      · exact ha c h
      · exact ha' c h
    · intro c hc
      rcases List.mem_append.1 hc with h | h
      · exact hb' c h
      · exact hb c h

/-- **C12.** `MatrixDataset.from_csv` succeeds exactly when `csv_to_masked_array`
does, with the dataset of its matrix, and otherwise raises `ValueError`. -/
theorem C12_from_csv (h10 : Arith.eq (Arith.ofNat 1 : α) (Arith.ofNat 0) = false)
    (parse : Text → Parsed X) (text : Text) :
    (∀ g, csvToMasked parse text = .ok g → ∃ md : MatrixDataset X α,
      MatrixDataset.fromCsv parse text = .ok md ∧ MatrixDataset.mk' (.two g) = .ok md) ∧
    (∀ e, csvToMasked parse text = .error e →
      (MatrixDataset.fromCsv parse text : Except PyErr (MatrixDataset X α)) = .error .valueError) := by
  constructor
  · intro g hg
    obtain ⟨md, l, h1, -⟩ := C10_claims_are_cells (α := α) h10 g false
    exact ⟨md, by simp [MatrixDataset.fromCsv, hg, h1], h1⟩
  · intro e he
    have := (C12_outcome parse text _ (table_iff.2 rfl)).2.1 e he
    subst this
    simp [MatrixDataset.fromCsv, he]

/-! ### C11 -/

/-- Printed entry. -/
def cellText (str : X → Text) (v : Option X) : Text :=
  match v with
  | none => []
  | some v => str v

omit [DecidableEq X] [Arith α] in
theorem gridToCsv_eq (str : X → Text) (g : Grid X) :
    gridToCsv str g = joinWith '\n' (g.map fun row => joinWith ',' (row.map (cellText str))) := by
  unfold gridToCsv
  congr 1

theorem mem_joinWith {sep c : Char} {ps : List Text} (h : c ∈ joinWith sep ps) :
    c = sep ∨ ∃ p ∈ ps, c ∈ p := by
  induction ps with
  | nil => simp [joinWith] at h
  | cons p ps ih =>
    cases ps with
    | nil => right; exact ⟨p, by simp, h⟩
    | cons q ps =>
      simp only [joinWith, List.mem_append, List.mem_cons] at h
      rcases h with h | h | h
      · right; exact ⟨p, by simp, h⟩
      · left; exact h
      · rcases ih h with h | ⟨r, hr, hc⟩
        · left; exact h
        · right; exact ⟨r, by simp [hr], hc⟩

theorem joinWith_ne_nil {sep : Char} {p q : Text} {ps : List Text} :
    joinWith sep (p :: q :: ps) ≠ [] := by
  simp [joinWith]

/-- First character of a joined text. -/
theorem head_joinWith {sep : Char} {p : Text} {ps : List Text} (hp : p ≠ []) :
    (joinWith sep (p :: ps)).head? = p.head? := by
  cases ps with
  | nil => rfl
  | cons q ps =>
    simp only [joinWith, List.head?_append]
    cases p with
    | nil => exact absurd rfl hp
    | cons c cs => simp

theorem head_joinWith_nil {sep : Char} {q : Text} {ps : List Text} :
    (joinWith sep ([] :: q :: ps)).head? = some sep := by
  simp [joinWith]

theorem joinWith_append {sep : Char} {ps : List Text} {p q : Text} :
    joinWith sep (p :: ps ++ [q]) = joinWith sep (p :: ps) ++ sep :: q := by
  induction ps generalizing p with
  | nil => simp [joinWith]
  | cons r ps ih =>
    simp only [List.cons_append, joinWith] at ih ⊢
    rw [ih]; simp

theorem last_joinWith {sep : Char} {p : Text} {ps : List Text} (hp : p ≠ []) :
    (joinWith sep (ps ++ [p])).getLast? = p.getLast? := by
  cases ps with
  | nil => rfl
  | cons q ps =>
    rw [joinWith_append, List.getLast?_append]
    cases p with
    | nil => exact absurd rfl hp
    | cons c cs =>
      rw [List.getLast?_cons_cons]
      rw [List.getLast?_eq_some_getLast (l := c :: cs) (by simp)]
      rfl

theorem last_joinWith_nil {sep : Char} {q : Text} {ps : List Text} :
    (joinWith sep (q :: ps ++ [[]])).getLast? = some sep := by
  rw [joinWith_append]; simp

theorem strip_self {u : Text} (h1 : ∀ c ∈ u.head?, isBlank c = false)
    (h2 : ∀ c ∈ u.getLast?, isBlank c = false) : strip u = u :=
  strip_of_stripped ⟨⟨[], [], by simp, by simp, by simp⟩, h1, h2⟩

theorem strip_clean {u : Text} (h : ∀ c ∈ u, isBlank c = false) : strip u = u := by
  apply strip_self
  · intro c hc; exact h c (List.mem_of_mem_head? hc)
  · intro c hc; exact h c (List.mem_of_mem_getLast? hc)

omit [DecidableEq X] [Arith α] in
theorem csv_round_trip (str : X → Text) (parse : Text → Parsed X) (hrt : RoundTrips str parse)
    (n : Nat) (g : Grid X) (hr : Rect n g) (hg : g ≠ [])
    (hn : 2 ≤ n ∨ (n = 1 ∧ g.head? ≠ some [none] ∧ g.getLast? ≠ some [none])) :
    csvToMasked parse (gridToCsv str g) = .ok g := by
  have hclean : ∀ v : Option X, ∀ c ∈ cellText str v, c ≠ ',' ∧ isBlank c = false := by
    intro v c hc
    cases v with
    | none => simp [cellText] at hc
    | some v => exact hrt.clean v c hc
  have hsp : isBlank ',' = false := by decide
  have hnl : isBlank '\n' = true := by decide
  -- every row, as text, has clean ends
  have hrow : ∀ row ∈ g, (row = [none] ∧ n = 1) ∨ (joinWith ',' (row.map (cellText str)) ≠ [] ∧
      (∀ c ∈ (joinWith ',' (row.map (cellText str))).head?, isBlank c = false) ∧
      (∀ c ∈ (joinWith ',' (row.map (cellText str))).getLast?, isBlank c = false)) := by
    intro row hrow
    have hlen := hr row hrow
    have hall : ∀ c ∈ joinWith ',' (row.map (cellText str)), isBlank c = false := by
      intro c hc
      rcases mem_joinWith hc with rfl | ⟨p, hp, hcp⟩
      · exact hsp
      · obtain ⟨v, _, rfl⟩ := List.mem_map.1 hp
        exact (hclean v c hcp).2
    have ends : (∀ c ∈ (joinWith ',' (row.map (cellText str))).head?, isBlank c = false) ∧
      (∀ c ∈ (joinWith ',' (row.map (cellText str))).getLast?, isBlank c = false) :=
      ⟨fun c hc => hall c (List.mem_of_mem_head? hc),
       fun c hc => hall c (List.mem_of_mem_getLast? hc)⟩
    match row, hlen with
    | [], hlen => simp at hlen; omega
    | [none], hlen => left; exact ⟨rfl, by simpa using hlen.symm⟩
    | [some v], _ => right; exact ⟨hrt.nonempty v, ends⟩
    | a :: b :: r, _ => right; exact ⟨joinWith_ne_nil, ends⟩
  have hlines : ∀ p ∈ g.map fun row => joinWith ',' (row.map (cellText str)), '\n' ∉ p := by
    intro p hp hc
    obtain ⟨row, _, rfl⟩ := List.mem_map.1 hp
    rcases mem_joinWith hc with h | ⟨p, hp, hcp⟩
    · exact absurd h (by decide)
    · obtain ⟨v, _, rfl⟩ := List.mem_map.1 hp
      have := (hclean v _ hcp).2
      rw [hnl] at this; exact absurd this (by decide)
  have hstrip : strip (gridToCsv str g) = gridToCsv str g := by
    rw [gridToCsv_eq]
    have hfirst : ∀ row, g.head? = some row → joinWith ',' (row.map (cellText str)) ≠ [] ∧
      (∀ c ∈ (joinWith ',' (row.map (cellText str))).head?, isBlank c = false) := by
      intro row h
      rcases hrow row (List.mem_of_mem_head? h) with ⟨rfl, h1⟩ | h'
      · rcases hn with hn | hn
        · omega
        · exact absurd h hn.2.1
      · exact ⟨h'.1, h'.2.1⟩
    have hlast : ∀ row, g.getLast? = some row → joinWith ',' (row.map (cellText str)) ≠ [] ∧
      (∀ c ∈ (joinWith ',' (row.map (cellText str))).getLast?, isBlank c = false) := by
      intro row h
      rcases hrow row (List.mem_of_mem_getLast? h) with ⟨rfl, h1⟩ | h'
      · rcases hn with hn | hn
        · omega
        · exact absurd h hn.2.2
      · exact ⟨h'.1, h'.2.2⟩
    apply strip_self
    · cases g with
      | nil => exact absurd rfl hg
      | cons row g' =>
        obtain ⟨h1, h2⟩ := hfirst row rfl
        rw [List.map_cons, head_joinWith h1]
        exact h2
    · obtain ⟨g', row, rfl⟩ : ∃ g' row, g = g' ++ [row] :=
        ⟨g.dropLast, g.getLast hg, (List.dropLast_append_getLast hg).symm⟩
      obtain ⟨h1, h2⟩ := hlast row (by simp)
      rw [List.map_append, List.map_singleton, last_joinWith h1]
      exact h2
  have htable : Table (gridToCsv str g) (g.map fun row => row.map (cellText str)) := by
    rw [table_iff, hstrip, gridToCsv_eq, split_join (by simpa using hg) hlines, List.map_map]
    apply List.map_congr_left
    intro row hrow'
    have hne : row ≠ [] := by
      intro h; have := hr row hrow'; rw [h] at this; simp at this; omega
    simp only [Function.comp_apply]
    rw [split_join (by simpa using hne), List.map_map]
    · apply List.map_congr_left
      intro v _
      exact strip_clean fun c hc => (hclean v c hc).2
    · intro p hp hc
      obtain ⟨v, _, rfl⟩ := List.mem_map.1 hp
      exact (hclean v _ hc).1 rfl
  have hcell : ∀ v : Option X, cellOf parse (cellText str v) = v ∧ ¬ badCell parse (cellText str v) := by
    intro v
    cases v with
    | none => simp [cellOf, cellText, badCell]
    | some v =>
      have := hrt.nonempty v
      simp [cellOf, cellText, badCell, hrt.parse_str, this]
  rcases csvToMasked_eq parse _ _ htable with ⟨⟨r, hr', hb⟩, h2⟩ | ⟨h1, h2⟩
  · exfalso
    obtain ⟨row, hrow', rfl⟩ := List.mem_map.1 hr'
    rcases hb with ⟨r0, h0, hne⟩ | ⟨v, hv, hb⟩
    · rw [List.head?_map] at h0
      simp only [Option.mem_def, Option.map_eq_some_iff] at h0
      obtain ⟨row0, h0, rfl⟩ := h0
      simp only [List.length_map] at hne
      exact hne ((hr row hrow').trans (hr row0 (List.mem_of_mem_head? h0)).symm)
    · obtain ⟨w, _, rfl⟩ := List.mem_map.1 hv
      exact (hcell w).2 hb
  · rw [h2, List.map_map]
    congr 1
    conv_rhs => rw [← List.map_id g]
    apply List.map_congr_left
    intro row _
    simp only [Function.comp_apply, List.map_map, id]
    conv_rhs => rw [← List.map_id row]
    apply List.map_congr_left
    intro v _
    exact (hcell v).1

/-- **C11.** Reading back what `to_csv` wrote gives an equal dataset: for matrices
with at least one row and two columns, and for one-column matrices whose first and
last rows are not empty, or whose only row is empty. -/
theorem C11_round_trip (h10 : Arith.eq (Arith.ofNat 1 : α) (Arith.ofNat 0) = false)
    (str : X → Text) (parse : Text → Parsed X) (hrt : RoundTrips str parse)
    (n : Nat) (g : Grid X) (hr : Rect n g) (hg : g ≠ [])
    (hn : 2 ≤ n ∨ (n = 1 ∧ g.head? ≠ some [none] ∧ g.getLast? ≠ some [none]) ∨ g = [[none]])
    (md : MatrixDataset X α) (hmd : MatrixDataset.mk' (.two g) = .ok md) :
    MatrixDataset.fromCsv parse (md.toCsv str) = .ok md := by
  have hsv : md.sv = g := by
    simp only [MatrixDataset.mk', bind, Except.bind] at hmd
    cases hx : (Dataset.mk' (getTriples g) false none : Except _ (Dataset Nat Nat X α)) with
    | error e => rw [hx] at hmd; cases hmd
    | ok d => rw [hx] at hmd; cases hmd; rfl
  have h1 : csvToMasked parse (gridToCsv str g) = .ok g := by
    rcases hn with hn | hn | rfl
    · exact csv_round_trip str parse hrt n g hr hg (Or.inl hn)
    · exact csv_round_trip str parse hrt n g hr hg (Or.inr hn)
    · rfl
  obtain ⟨md', h2, h3⟩ := (C12_from_csv (α := α) h10 parse _).1 g h1
  rw [hmd] at h3
  cases h3
  unfold MatrixDataset.toCsv
  rw [hsv]; exact h2

omit [DecidableEq X] [Arith α] in
/-- **C11.** The condition cannot be dropped: a one-column matrix with an empty
first or last row and at least two rows, a matrix without rows, and one without
columns are never read back as they were. -/
theorem C11_exact_condition (str : X → Text) (parse : Text → Parsed X)
    (n : Nat) (g : Grid X) (hr : Rect n g)
    (hbad : g = [] ∨ n = 0 ∨ (n = 1 ∧ 2 ≤ g.length ∧
      (g.head? = some [none] ∨ g.getLast? = some [none])))
    (hclean : ∀ v, ∀ c ∈ str v, c ≠ '\n') :
    csvToMasked parse (gridToCsv str g) ≠ .ok g := by
  have hform : ∀ text g', csvToMasked parse text = .ok g' →
      g'.length = (split '\n' (strip text)).length ∧ ∀ row ∈ g', row ≠ [] := by
    intro text g' h
    have hf := (C12_outcome parse text _ (table_iff.2 rfl)).2.2 g' h
    refine ⟨by simpa using hf.length_eq.symm, ?_⟩
    intro row hrow
    obtain ⟨i, hi, e⟩ := List.getElem_of_mem hrow
    have h2 := hf.get (i := i) (by have := hf.length_eq; omega) hi
    have h3 := h2.length_eq
    intro he
    simp only [List.get_eq_getElem, List.getElem_map, List.length_map] at h3
    rw [e, he] at h3
    exact split_ne_nil _ _ (List.length_eq_zero_iff.1 (by simpa using h3))
  intro h
  obtain ⟨h1, h2⟩ := hform _ _ h
  have h0 : g ≠ [] := by
    intro e; subst e
    exact split_ne_nil _ _ (List.length_eq_zero_iff.1 h1.symm)
  rcases hbad with hbad | hbad | ⟨hn, hlen, hbad⟩
  · exact h0 hbad
  · subst hbad
    cases g with
    | nil => exact h0 rfl
    | cons row g =>
      exact h2 row (by simp) (List.length_eq_zero_iff.1 (hr row (by simp)))
  · -- the text starts or ends with a newline, so stripping loses a line
    have count : ∀ t : Text, (split '\n' t).length = t.count '\n' + 1 := by
      intro t
      induction t with
      | nil => simp [split]
      | cons c t ih =>
        simp only [split]
        split
        · rename_i hc; subst hc; simp [ih]
        · rename_i hc
          cases hs : split '\n' t with
          | nil => exact absurd hs (split_ne_nil _ _)
          | cons p ps =>
            rw [hs] at ih
            simp only [List.length_cons] at ih ⊢
            rw [List.count_cons_of_ne (by simpa using hc)]
            exact ih
    have htext : gridToCsv str g = joinWith '\n' (g.map fun row => joinWith ',' (row.map (cellText str))) :=
      gridToCsv_eq str g
    have hsplit : (split '\n' (gridToCsv str g)).length = g.length := by
      rw [htext, split_join (by simpa using h0)]
      · simp
      · intro p hp hc
        obtain ⟨row, _, rfl⟩ := List.mem_map.1 hp
        rcases mem_joinWith hc with h | ⟨p, hp, hcp⟩
        · exact absurd h (by decide)
        · obtain ⟨v, _, rfl⟩ := List.mem_map.1 hp
          cases v with
          | none => simp [cellText] at hcp
          | some v => exact hclean v _ hcp rfl
    obtain ⟨⟨a, b, hab, ha, hb⟩, h3, h4⟩ := strip_stripped (gridToCsv str g)
    have hcount : (gridToCsv str g).count '\n' = (strip (gridToCsv str g)).count '\n' := by
      have e1 := count (gridToCsv str g)
      have e2 := count (strip (gridToCsv str g))
      omega
    have hsp : isBlank '\n' = true := by decide
    -- no newline in the parts stripped away
    have hz : a.count '\n' = 0 ∧ b.count '\n' = 0 := by
      have e3 := congrArg (List.count '\n') hab
      rw [List.count_append, List.count_append] at e3
      omega
    have hcells : ∀ row ∈ g, ∃ v, row = [v] := by
      intro row hrow
      have := hr row hrow
      match row, this with
      | [v], _ => exact ⟨v, rfl⟩
      | [], h => simp [hn] at h
      | _ :: _ :: _, h => simp [hn] at h
    have hnl : (gridToCsv str g).head? = some '\n' ∨ (gridToCsv str g).getLast? = some '\n' := by
      rw [htext]
      rcases hbad with hb | hb
      · left
        match g, hlen, hb with
        | row :: q :: g', _, hb =>
          simp only [List.head?_cons, Option.some.injEq] at hb
          subst hb
          simp [cellText, joinWith]
      · right
        obtain ⟨g', row, rfl⟩ : ∃ g' row, g = g' ++ [row] :=
          ⟨g.dropLast, g.getLast h0, (List.dropLast_append_getLast h0).symm⟩
        have : row = [none] := by simpa using hb
        subst this
        cases g' with
        | nil => simp at hlen
        | cons q g' =>
          have := last_joinWith_nil (sep := '\n') (q := joinWith ',' (q.map (cellText str)))
            (ps := g'.map fun row => joinWith ',' (row.map (cellText str)))
          simpa [cellText, joinWith] using this
    rcases hnl with hnl | hnl
    · rw [hab] at hnl
      cases a with
      | cons c a =>
        have : c = '\n' := by simpa using hnl
        subst this
        simp at hz
      | nil =>
        cases hu : strip (gridToCsv str g) with
        | cons c u =>
          rw [hu] at h3 hnl
          have hc : c = '\n' := by simpa using hnl
          have h5 := h3 c (by simp)
          rw [hc, hsp] at h5; cases h5
        | nil =>
          rw [hu] at hnl
          have hmem : '\n' ∈ b := List.mem_of_mem_head? (by simpa using hnl)
          have := List.count_pos_iff.2 hmem
          omega
    · rw [hab] at hnl
      rcases List.eq_nil_or_concat b with rfl | ⟨b', c, rfl⟩
      · simp only [List.append_nil] at hnl
        rcases List.eq_nil_or_concat (strip (gridToCsv str g)) with hu | ⟨u, c, hu⟩
        · rw [hu] at hnl
          have hmem : '\n' ∈ a := List.mem_of_mem_getLast? (by simpa using hnl)
          have := List.count_pos_iff.2 hmem
          omega
        · rw [hu] at h4 hnl
          have hc : c = '\n' := by simpa using hnl
          have h5 := h4 c (by simp)
          rw [hc, hsp] at h5; cases h5
      · have : c = '\n' := by simpa [List.getLast?_append] using hnl
        subst this
        simp at hz

/-- One-digit numbers printed as decimal digits. -/
def Toy.digit (d : Fin 10) : Text := [Nat.digitChar d]

/-- Parser for one-digit numbers. -/
def Toy.parseDigit (t : Text) : Parsed (Fin 10) :=
  match t with
  | [c] => match (List.finRange 10).find? (fun d => Toy.digit d = [c]) with
    | some d => .num d
    | none => .bad
  | _ => .bad

theorem Toy.digit_roundTrips : RoundTrips Toy.digit Toy.parseDigit where
  parse_str := by
    decide
  nonempty := by intro v; simp [Toy.digit]
  clean := by
    decide

/-- A matrix with missing entries. -/
def Toy.grid : Grid (Fin 10) := [[some 1, none, some 2], [none, none, none], [none, some 7, some 1]]

open Toy in
example : Rect 3 grid ∧ grid ≠ [] ∧
    gridToCsv digit grid = "1,,2\n,,\n,7,1".toList ∧
    ∃ md : MatrixDataset (Fin 10) Int, MatrixDataset.mk' (.two grid) = .ok md := by
  refine ⟨by simp [Rect, grid], by simp [grid], by decide, ?_⟩
  obtain ⟨md, l, h, -⟩ := C10_claims_are_cells (α := Int) one_ne_zero grid false
  exact ⟨md, h⟩

open Toy in
example : csvToMasked parseDigit "1,2\n3\n".toList = .error .valueError ∧
    csvToMasked parseDigit " 1 ,x".toList = .error .valueError ∧
    csvToMasked parseDigit "\n 1 , \n 2,3 \n".toList = .ok [[some 1, none], [some 2, some 3]] := by
  decide

end TD
