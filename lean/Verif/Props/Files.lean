import Verif.Model.Files
import Verif.Spec.Files
import Verif.Spec.Cli
import Verif.Lemmas.Text
import Verif.Lemmas.Rel
import Verif.Props.Dataset
import Verif.Props.Cli
/-!
# C72: datasets read from files
-/

namespace TD
open Spec

section
variable {β γ S V X α : Type} [DecidableEq S] [DecidableEq V] [DecidableEq X] [Arith α]

/-- **C72.** A `FileDataset` whose `get_tuples` ends normally is the `Dataset` of the tuples
it yields; if `get_tuples` raises, the constructor raises: the error about the first repeated
pair if the tuples before contain one and repetitions are not allowed, the exception of
`get_tuples` otherwise. -/
theorem C72_file_dataset (tuples : List (S × V × X)) (am : Bool)
    (f : Option (V → X → X → Option α)) (e : PyErr) :
    fileDataset ⟨tuples, none⟩ am f = Dataset.mk' tuples am f ∧
    ((am = true ∨ NoRepeats tuples) →
      fileDataset ⟨tuples, some e⟩ am f = .error (.py e)) ∧
    (am = false → ∀ pre s v x post y, tuples = pre ++ (s, v, x) :: post → NoRepeats pre →
      (s, v, y) ∈ pre → fileDataset ⟨tuples, some e⟩ am f = .error (.multiple s v)) := by
  refine ⟨rfl, ?_, ?_⟩
  · intro h
    unfold fileDataset
    have : ∃ b, Build.run am tuples = .ok b := by
      rcases h with rfl | h
      · exact ⟨_, run_true tuples⟩
      · cases am
        · exact ⟨_, run_false tuples h⟩
        · exact ⟨_, run_true tuples⟩
    obtain ⟨b, hb⟩ := this
    simp only [hb]
  · rintro rfl pre s v x post y h1 h2 h3
    have hd := (C05_duplicates_rejected (α := α) tuples none s v).2 ⟨pre, x, post, h1, h2, y, h3⟩
    unfold fileDataset
    cases hb : Build.run false tuples with
    | error e' =>
      simp only [Dataset.mk', hb, bind, Except.bind] at hd
      exact hd
    | ok b =>
      simp only [Dataset.mk', hb, bind, Except.bind, impMat_none, pure, Except.pure] at hd
      cases hd

/-- **C72.** By default repetitions are not allowed and there is no implication function. -/
theorem C72_default (h10 : Arith.eq (Arith.ofNat 1 : α) (Arith.ofNat 0) = false) (tuples : List (S × V × X)) (e : PyErr) :
    ((∃ d : Dataset S V X α, fileDataset ⟨tuples, none⟩ = .ok d) ↔ NoRepeats tuples) ∧
    (∀ d : Dataset S V X α, fileDataset ⟨tuples, none⟩ = .ok d → Dataset.mk' tuples = .ok d) ∧
    ∀ d : Dataset S V X α, fileDataset ⟨tuples, some e⟩ ≠ .ok d := by
  refine ⟨C05_default h10 tuples, fun d h => h, fun d h => ?_⟩
  unfold fileDataset at h
  dsimp only at h
  split at h <;> cases h

/-- **C72.** The true values of a `FileSupervisedData`: the last pair for a variable
counts; an exception of `get_pairs` escapes. -/
theorem C72_file_values (pairs : List (Text × X)) (e : PyErr) :
    (∃ values, fileValues ⟨pairs, none⟩ = .ok values ∧ LastOf pairs values ∧ values.keys.Nodup) ∧
    fileValues ⟨pairs, some e⟩ = .error e :=
  ⟨⟨_, rfl, lastOf_ofPairs pairs⟩, rfl⟩

end

/-! ### Tab separated files -/

theorem fileLines_lines (t : Text) : Lines t (fileLines t) := by
  induction t with
  | nil => exact .none
  | cons c cs ih =>
    unfold fileLines
    split
    · rename_i h
      subst h
      exact Lines.more [] cs _ (by simp) ih
    · rename_i h
      generalize fileLines cs = ls at ih
      cases ih with
      | none => exact .last [c] (by simp) (by simp [Ne.symm h])
      | last _ hne hp => exact .last (c :: cs) (by simp) (by simp [Ne.symm h, hp])
      | more p t ps hp ht => exact Lines.more (c :: p) t ps (by simp [Ne.symm h, hp]) ht

theorem lines_unique {t : Text} {ls : List Text} (h : Lines t ls) : fileLines t = ls := by
  induction h with
  | none => rfl
  | last p hne hp =>
    have : ∀ p : Text, '\n' ∉ p → p ≠ [] → fileLines p = [p] := by
      intro p
      induction p with
      | nil => simp
      | cons c cs ih =>
        intro hp _
        simp only [List.mem_cons, not_or] at hp
        unfold fileLines
        rw [if_neg (Ne.symm hp.1)]
        cases cs with
        | nil => simp [fileLines]
        | cons d ds => rw [ih hp.2 (by simp)]
    exact this p hp hne
  | more p t ps hp _ ih =>
    induction p with
    | nil => simp [fileLines, ih]
    | cons c cs ihp =>
      simp only [List.mem_cons, not_or] at hp
      rw [List.cons_append, fileLines, if_neg (Ne.symm hp.1), ihp hp.2]
      rfl

theorem tsvLine_some {line s v : Text} {val : List Text} (h : Separated '\t' line (s :: v :: val)) :
    tsvLine line = some (s, v, val) := by
  rw [tsvLine, split_of_separated h]

theorem tsvLine_none {line : Text} (h : '\t' ∉ line) : tsvLine line = none := by
  rw [tsvLine, split_of_separated (.one line h)]

theorem records_exist (n : Nat) (ls : List Text) : ∃ ts bad, Records n ls ts bad := by
  induction ls generalizing n with
  | nil => exact ⟨_, _, .none n⟩
  | cons l ls ih =>
    obtain ⟨ts, bad, h⟩ := ih (n + 1)
    have hs := split_separated '\t' l
    generalize split '\t' l = ps at hs
    cases hs with
    | one _ hp => exact ⟨_, _, .malformed n l ls ts bad hp h⟩
    | more p t ps hp ht =>
      cases ht with
      | one _ hq => exact ⟨_, _, .record n _ p t [] ls ts bad (.more p t [t] hp (.one t hq)) h⟩
      | more q u qs hq hu =>
        exact ⟨_, _, .record n _ p q qs ls ts bad (.more p _ _ hp (.more q u qs hq hu)) h⟩

theorem records_eq {n : Nat} {ls : List Text} {ts : List (Text × Text × List Text)} {bad : List Nat}
    (h : Records n ls ts bad) :
    ls.filterMap tsvLine = ts ∧
    ((ls.zipIdx n).map fun p => (p.2, p.1)).filterMap
      (fun p => if (tsvLine p.2).isNone then some p.1 else none) = bad := by
  induction h with
  | none n => simp
  | record n line s v val ls ts bad h _ ih =>
    have := tsvLine_some h
    simp only [List.filterMap_cons, this, ih.1, List.zipIdx_cons, List.map_cons, true_and]
    simpa using ih.2
  | malformed n line ls ts bad h _ ih =>
    have := tsvLine_none h
    simp only [List.filterMap_cons, this, ih.1, List.zipIdx_cons, List.map_cons, true_and]
    simpa using ih.2

/-- **C72.** A `TsvDataset` is never rejected for its content (without an implication
function): it is the dataset of the records in the lines of the file, the first record for a
source and variable counts, and the messages name exactly the lines without a tab, counted
from 0. -/
theorem C72_tsv {α : Type} [Arith α]
    (h10 : Arith.eq (Arith.ofNat 1 : α) (Arith.ofNat 0) = false) (text : Text)
    (f : Option (Text → List Text → List Text → Option α)) :
    ∃ lines records malformed, Lines text lines ∧ Records 0 lines records malformed ∧
      tsvTuples (fileLines text) = (records, malformed) ∧
      tsvDataset text f = Dataset.mk' records true f ∧
      (f = none → ∃ d : Dataset Text Text (List Text) α, tsvDataset text f = .ok d) := by
  obtain ⟨ts, bad, h⟩ := records_exist 0 (fileLines text)
  have e := records_eq h
  have e1 : tsvTuples (fileLines text) = (ts, bad) := by
    unfold tsvTuples enum
    rw [e.1, e.2]
  have e2 : tsvDataset text f = Dataset.mk' ts true f := by
    unfold tsvDataset fileDataset
    simp only [e1]
  refine ⟨_, ts, bad, fileLines_lines text, h, e1, e2, ?_⟩
  rintro rfl
  obtain ⟨d, hd⟩ := (C05_accepted_iff (α := α) h10 ts).1 true |>.2 (.inl rfl)
  exact ⟨d, e2.trans hd⟩

/-- **C72.** The lines and records of a text are unique, so `C72_tsv` determines the
dataset. -/
theorem C72_tsv_unique {text : Text} {lines lines' : List Text}
    {ts ts' : List (Text × Text × List Text)} {bad bad' : List Nat}
    (h : Lines text lines) (h' : Lines text lines') (hr : Records 0 lines ts bad)
    (hr' : Records 0 lines' ts' bad') : lines = lines' ∧ ts = ts' ∧ bad = bad' := by
  have e : lines = lines' := (lines_unique h).symm.trans (lines_unique h')
  subst e
  have := records_eq hr
  have h2 := records_eq hr'
  exact ⟨rfl, this.1.symm.trans h2.1, this.2.symm.trans h2.2⟩

/-- The last value field keeps the newline of its line: in a file whose last line has no
newline, the claim in that line is a different one. -/
example :
    let text := "a\tx\t1\nb\tx\t1".toList
    Lines text ["a\tx\t1\n".toList, "b\tx\t1".toList] ∧
    (tsvTuples (fileLines text)).1 =
      [("a".toList, "x".toList, ["1\n".toList]), ("b".toList, "x".toList, ["1".toList])] := by
  refine ⟨?_, rfl⟩
  exact Lines.more "a\tx\t1".toList _ _ (by decide) (.last _ (by decide) (by decide))

example : tsvTuples (fileLines "a\tx\t1\n\nzz\nb\ty\n".toList) =
    ([("a".toList, "x".toList, ["1\n".toList]), ("b".toList, "y\n".toList, [])], [1, 2]) := rfl

/-! ### Stock data -/

theorem clean_iff {field value : Text} : Cleaned field value ↔ cleanValue field = value := by
  unfold Cleaned cleanValue
  rw [stripped_iff]
  have : "$%+-".toList.foldl (fun v c => v.filter (· ≠ c)) field =
      field.filter fun c => decide (c ∉ ['$', '%', '+', '-']) := by
    have e : "$%+-".toList = ['$', '%', '+', '-'] := rfl
    rw [e]
    simp only [List.foldl_cons, List.foldl_nil]
    simp only [List.filter_filter]
    congr 1
    funext c
    by_cases h1 : c = '$' <;> by_cases h2 : c = '%' <;> by_cases h3 : c = '+' <;>
      by_cases h4 : c = '-' <;> simp [h1, h2, h3, h4]
  rw [this]

theorem generate_ok {β γ : Type} {f : β → Except PyErr (List γ)} {l : List β}
    (h : ∀ b ∈ l, ∃ ys, f b = .ok ys) :
    (generate f l).failure = none ∧
    ∀ y, y ∈ (generate f l).items ↔ ∃ b ∈ l, ∃ ys, f b = .ok ys ∧ y ∈ ys := by
  induction l with
  | nil => simp [generate]
  | cons b bs ih =>
    obtain ⟨ys, hy⟩ := h b (by simp)
    obtain ⟨i1, i2⟩ := ih fun b hb => h b (by simp [hb])
    unfold generate
    rw [hy]
    refine ⟨i1, fun y => ?_⟩
    simp only [List.mem_append, i2, List.mem_cons]
    constructor
    · rintro (hm | ⟨b', hb', r⟩)
      · exact ⟨b, .inl rfl, ys, hy, hm⟩
      · exact ⟨b', .inr hb', r⟩
    · rintro ⟨b', rfl | hb', ys', h1, h2⟩
      · rw [hy] at h1; cases h1; exact .inl h2
      · exact .inr ⟨b', hb', ys', h1, h2⟩

theorem generate_error {β γ : Type} {f : β → Except PyErr (List γ)} {l : List β} {e : PyErr}
    (hf : ∀ b e', f b = .error e' → e' = e) {b : β} (hb : b ∈ l) (hbe : f b = .error e) :
    (generate f l).failure = some e := by
  induction l with
  | nil => simp at hb
  | cons c cs ih =>
    unfold generate
    cases hc : f c with
    | error e' => rw [hf c e' hc]
    | ok ys =>
      rcases List.mem_cons.1 hb with rfl | hb
      · rw [hbe] at hc; cases hc
      · exact ih hb

theorem varVals_error {str : Nat → Text} {row : List Text} {date : Text} {e : PyErr}
    (h : stockVarVals str row date = .error e) : e = .valueError := by
  unfold stockVarVals at h
  split at h <;> cases h
  rfl

theorem mem_varVals {str : Nat → Text} {symbol date : Text} {attrs : List Text} {name value : Text}
    {ys : List (Text × Text)} (h : stockVarVals str (symbol :: attrs) date = .ok ys) :
    (name, value) ∈ ys ↔ ∃ i field, attrs[i]? = some field ∧ Cleaned field value ∧ value ≠ [] ∧
      name = attributeName str symbol date i := by
  simp only [stockVarVals, Except.ok.injEq] at h
  subst h
  simp only [List.mem_filterMap, Prod.exists, clean_iff]
  refine exists_congr fun i => exists_congr fun field => ?_
  rw [mem_enum']
  refine and_congr_right fun _ => ?_
  cases hc : cleanValue field with
  | nil =>
    simp only [List.isEmpty_nil, if_true, false_iff, reduceCtorEq]
    rintro ⟨rfl, h, _⟩; exact h rfl
  | cons c cs =>
    simp only [List.isEmpty_cons, Bool.false_eq_true, if_false, Option.some.injEq, Prod.mk.injEq]
    constructor
    · rintro ⟨rfl, rfl⟩
      refine ⟨rfl, by simp, ?_⟩
      simp [stockName, attributeName]
    · rintro ⟨rfl, -, rfl⟩
      refine ⟨?_, rfl⟩
      simp [stockName, attributeName]

/-- **C72.** Stock data: if every row has a date, a source and a symbol, the dataset is that
of tuples which are exactly what the rows say; a row with fewer fields always makes the
constructor fail. -/
theorem C72_stock {α : Type} [Arith α] (str : Nat → Text) (rows : List (List Text)) (am : Bool)
    (f : Option (Text → Text → Text → Option α)) :
    ((∀ row ∈ rows, 3 ≤ row.length) →
      ∃ tuples, fileDataset (stockTuples str rows) am f = Dataset.mk' tuples am f ∧
        ∀ s name value, (s, name, value) ∈ tuples ↔
          ∃ row ∈ rows, ∃ date, RowSays str date [date, s] row name value) ∧
    ((∃ row ∈ rows, row.length < 3) →
      ∀ d, fileDataset (stockTuples str rows) am f ≠ .ok d) := by
  constructor
  · intro h
    obtain ⟨h1, h2⟩ := generate_ok (l := rows) (f := stockTuplesRow str) (by
        intro row hr
        have := h row hr
        match row with
        | [] => simp at this
        | [_] => simp at this
        | [_, _] => simp at this
        | date :: s :: symbol :: attrs => exact ⟨_, rfl⟩)
    refine ⟨(stockTuples str rows).items, ?_, ?_⟩
    · unfold fileDataset
      unfold stockTuples
      rw [h1]
    · intro s name value
      unfold stockTuples
      rw [h2]
      constructor
      · rintro ⟨row, hr, ys, hy, hm⟩
        have := h row hr
        match row with
        | [] => simp at this
        | [_] => simp at this
        | [_, _] => simp at this
        | date :: s' :: symbol :: attrs =>
          refine ⟨_, hr, date, ?_⟩
          cases hv : stockVarVals str (symbol :: attrs) date with
          | error e => simp [stockVarVals] at hv
          | ok vv =>
            simp only [stockTuplesRow, hv, bind, Except.bind, pure, Except.pure, Except.ok.injEq] at hy
            subst hy
            simp only [List.mem_map, Prod.exists, Prod.mk.injEq] at hm
            obtain ⟨a, b, hab, rfl, rfl, rfl⟩ := hm
            obtain ⟨i, field, g1, g2, g3, g4⟩ := (mem_varVals hv).1 hab
            exact ⟨symbol, attrs, i, field, rfl, g1, g2, g3, g4⟩
      · rintro ⟨row, hr, date, symbol, attrs, i, field, rfl, g1, g2, g3, g4⟩
        refine ⟨_, hr, ?_⟩
        have hv : stockVarVals str (symbol :: attrs) date = .ok _ := rfl
        refine ⟨_, rfl, List.mem_map.2 ⟨(name, value), (mem_varVals hv).2 ⟨i, field, g1, g2, g3, g4⟩, rfl⟩⟩
  · rintro ⟨row, hr, hl⟩ d hd
    have hfail : (stockTuples str rows).failure = some .valueError := by
      refine generate_error (b := row) ?_ hr ?_
      · intro b e' hb
        unfold stockTuplesRow at hb
        split at hb
        · rename_i date s rest
          cases hv : stockVarVals str rest date with
          | error e =>
            simp only [hv, bind, Except.bind, Except.error.injEq] at hb
            rw [← hb]; exact varVals_error hv
          | ok vv => simp [hv, bind, Except.bind, pure, Except.pure] at hb
        · cases hb; rfl
      · match row with
        | [] => rfl
        | [_] => rfl
        | [_, _] => rfl
        | _ :: _ :: _ :: _ => simp at hl; omega
    unfold fileDataset at hd
    rw [hfail] at hd
    dsimp only at hd
    split at hd <;> cases hd

/-- **C72.** True values of stock data: if every row has a date and a symbol, the values
are those of pairs which are exactly what the rows say, the last one for a name counts; a row
with fewer fields raises `ValueError`. -/
theorem C72_stock_truth (str : Nat → Text) (rows : List (List Text)) :
    ((∀ row ∈ rows, 2 ≤ row.length) →
      ∃ pairs values, fileValues (stockPairs str rows) = .ok values ∧ LastOf pairs values ∧
        ∀ name value, (name, value) ∈ pairs ↔
          ∃ row ∈ rows, ∃ date, RowSays str date [date] row name value) ∧
    ((∃ row ∈ rows, row.length < 2) → fileValues (stockPairs str rows) = .error .valueError) := by
  constructor
  · intro h
    obtain ⟨h1, h2⟩ := generate_ok (l := rows) (f := stockPairsRow str) (by
        intro row hr
        have := h row hr
        match row with
        | [] => simp at this
        | [_] => simp at this
        | date :: symbol :: attrs => exact ⟨_, rfl⟩)
    refine ⟨(stockPairs str rows).items, Dict.ofPairs (stockPairs str rows).items, ?_,
      (lastOf_ofPairs _).1, ?_⟩
    · unfold fileValues stockPairs
      rw [h1]
    · intro name value
      unfold stockPairs
      rw [h2]
      constructor
      · rintro ⟨row, hr, ys, hy, hm⟩
        have := h row hr
        match row with
        | [] => simp at this
        | [_] => simp at this
        | date :: symbol :: attrs =>
          obtain ⟨i, field, g1, g2, g3, g4⟩ := (mem_varVals hy).1 hm
          exact ⟨_, hr, date, symbol, attrs, i, field, rfl, g1, g2, g3, g4⟩
      · rintro ⟨row, hr, date, symbol, attrs, i, field, rfl, g1, g2, g3, g4⟩
        have hv : stockVarVals str (symbol :: attrs) date = .ok _ := rfl
        exact ⟨_, hr, _, rfl, (mem_varVals hv).2 ⟨i, field, g1, g2, g3, g4⟩⟩
  · rintro ⟨row, hr, hl⟩
    have hfail : (stockPairs str rows).failure = some .valueError := by
      refine generate_error (b := row) ?_ hr ?_
      · intro b e' hb
        unfold stockPairsRow at hb
        split at hb
        · exact varVals_error hb
        · cases hb; rfl
      · match row with
        | [] => rfl
        | [_] => rfl
        | _ :: _ :: _ => simp at hl
    unfold fileValues
    rw [hfail]

/-- **C72.** Variables of stock data are only mixed up if symbols or dates contain
underscores (then they can be, see the example). -/
theorem C72_stock_names (str : Nat → Text) (hstr : ∀ i j, str i = str j → i = j)
    {symbol symbol' date date' : Text} {i j : Nat}
    (h1 : '_' ∉ symbol) (h2 : '_' ∉ symbol') (h3 : '_' ∉ date) (h4 : '_' ∉ date')
    (h : stockName str symbol date i = stockName str symbol' date' j) :
    symbol = symbol' ∧ date = date' ∧ i = j := by
  have h' : symbol ++ '_' :: (date ++ '_' :: (['a', 't', 't', 'r', '_'] ++ str i)) =
      symbol' ++ '_' :: (date' ++ '_' :: (['a', 't', 't', 'r', '_'] ++ str j)) := by
    simpa [stockName] using h
  obtain ⟨e1, e2⟩ := append_sep_inj h1 h2 h'
  obtain ⟨e3, e4⟩ := append_sep_inj h3 h4 e2
  exact ⟨e1, e3, hstr _ _ (List.append_cancel_left e4)⟩

example (str : Nat → Text) :
    stockName str "A_B".toList "C".toList 0 = stockName str "A".toList "B_C".toList 0 := rfl

/-- **C72.** Cleaning removes signs: a value and its negative are the same claim. -/
theorem C72_stock_sign (t : Text) : cleanValue ('-' :: t) = cleanValue t ∧
    cleanValue ('+' :: t) = cleanValue t := by
  constructor <;> rfl

example : (stockTuples (fun i => List.replicate i 'I') [["d".toList, "s".toList, "X".toList, "$1.5 ".toList, " ".toList, "-2%".toList]]).items =
    [("s".toList, "X_d_attr_".toList, "1.5".toList), ("s".toList, "X_d_attr_II".toList, "2".toList)] := rfl

example : fileDataset (α := Ex) (stockTuples (fun i => List.replicate i 'I')
      [["d".toList, "s".toList, "X".toList, "1".toList], ["d".toList, "s".toList, "X".toList, "2".toList], []]) =
    .error (.multiple "s".toList "X_d_attr_".toList) := rfl

end TD
