import Verif.Lemmas.JsonText
import Verif.Model.JsonFiles
import Verif.Props.Canvas
/-!
# C102: JSON texts are read back as the value that was written
-/

namespace TD
open Spec
variable {α : Type} {showNum : α → Text} {R : JsonReader α}

/-- **C102**.  A value whose numbers are written as literals is read back from its text, whatever its strings contain. -/
theorem C102_round_trip {v : WJson α} (h : ∀ x ∈ numbers v, Literal showNum R x) : parseJson R (pyDumps showNum v) = some v :=
  parseJson_dumps fun x hx => ⟨(h x hx).first, fun _ hr => readScalar_num (h x hx) hr⟩

/-- **C102**.  Different values have different texts. -/
theorem C102_injective {v w : WJson α} (hv : ∀ x ∈ numbers v, Literal showNum R x) (hw : ∀ x ∈ numbers w, Literal showNum R x)
    (h : pyDumps showNum v = pyDumps showNum w) : v = w := by
  have := (C102_round_trip hv).symm.trans (h ▸ C102_round_trip hw)
  exact Option.some.inj this

/-- **C102**.  The text is one line of printable ASCII characters. -/
theorem C102_ascii {v : WJson α} (h : ∀ x ∈ numbers v, ∀ c ∈ showNum x, 32 ≤ c.toNat ∧ c.toNat ≤ 126) :
    ∀ c ∈ pyDumps showNum v, 32 ≤ c.toNat ∧ c.toNat ≤ 126 :=
  pyDumps_print v h

theorem first_ne {c d : Char} (h : c ≠ d) (w w' : Text) : c :: w ≠ d :: w' := fun e => h (List.cons.inj e).1

theorem word_first {t : Text} (h : t ∈ ["NaN".toList, "Infinity".toList, "-Infinity".toList]) : NumFirst t := by
  simp only [List.mem_cons, List.not_mem_nil, or_false] at h
  have key : ∀ (c : Char) (w : Text), isJsonSpace c = false ∧ c ≠ ']' ∧ c ≠ '}' → c ≠ '"' ∧ c ≠ '[' ∧ c ≠ '{' → NumFirst (c :: w) :=
    fun c w h1 h2 => ⟨⟨c, w, rfl, h1⟩, first_ne h2.1 w, first_ne h2.2.1 w, first_ne h2.2.2 w⟩
  rcases h with rfl | rfl | rfl
  · exact key 'N' "aN".toList (by decide) (by decide)
  · exact key 'I' "nfinity".toList (by decide) (by decide)
  · exact key '-' "Infinity".toList (by decide) (by decide)

theorem readScalar_word {x : α} (h : NotANumber showNum R x) (rest : Text) :
    readScalar R (showNum x ++ rest) = readWord (R.words.map fun p => (p.1, .num p.2)) (showNum x ++ rest) := by
  have h0 := h.word
  simp only [List.mem_cons, List.not_mem_nil, or_false] at h0
  unfold readScalar
  rcases h0 with e | e | e <;> rw [e]
  · show (match R.number [] with
      | some x => _
      | none => _) = _
    rw [h.empty]
  · show (match R.number [] with
      | some x => _
      | none => _) = _
    rw [h.empty]
  · show (match R.number ['-'] with
      | some x => _
      | none => _) = _
    rw [h.sign]

/-- **C102**.  Not so with numbers that are not finite: `json.dump` writes them as words that are no JSON, and the browser
refuses the whole text. -/
theorem C102_browser {v : WJson α} (hR : R.words = []) (h : ∀ x ∈ numbers v, Literal showNum R x ∨ NotANumber showNum R x) :
    parseJson R (pyDumps showNum v) = some v ↔ ∀ x ∈ numbers v, Literal showNum R x := by
  constructor
  · intro he
    by_contra hn
    have hf : ∀ x, NotANumber showNum R x → NumFails showNum R x := fun x hx =>
      ⟨word_first hx.word, fun rest => by rw [readScalar_word hx, hR]; rfl⟩
    rw [parseJson_fails (fun x hx => (h x hx).imp (fun h => ⟨h.first, fun _ hr => readScalar_num h hr⟩) (hf x)) ?_] at he
    · cases he
    · push Not at hn
      obtain ⟨x, hx, hl⟩ := hn
      exact ⟨x, hx, hf x ((h x hx).resolve_left hl)⟩
  · exact C102_round_trip

/-- **C102**.  The browser never reads another value. -/
theorem C102_browser_none {v : WJson α} (hR : R.words = []) (h : ∀ x ∈ numbers v, Literal showNum R x ∨ NotANumber showNum R x) :
    parseJson R (pyDumps showNum v) = none ∨ parseJson R (pyDumps showNum v) = some v := by
  by_cases hl : ∀ x ∈ numbers v, Literal showNum R x
  · exact .inr (C102_round_trip hl)
  · refine .inl (parseJson_fails (fun x hx => (h x hx).imp (fun h => ⟨h.first, fun _ hr => readScalar_num h hr⟩) fun hx =>
      ⟨word_first hx.word, fun rest => by rw [readScalar_word hx, hR]; rfl⟩) ?_)
    push Not at hl
    obtain ⟨x, hx, hl⟩ := hl
    have hx' := (h x hx).resolve_left hl
    exact ⟨x, hx, word_first hx'.word, fun rest => by rw [readScalar_word hx', hR]; rfl⟩

/-- **C102**.  Python itself reads them. -/
theorem C102_python {v : WJson α} {nan inf ninf : α}
    (hR : R.words = [("NaN".toList, nan), ("Infinity".toList, inf), ("-Infinity".toList, ninf)])
    (hs : showNum nan = "NaN".toList ∧ showNum inf = "Infinity".toList ∧ showNum ninf = "-Infinity".toList)
    (h0 : R.number [] = none) (h1 : R.number ['-'] = none)
    (h : ∀ x ∈ numbers v, Literal showNum R x ∨ x = nan ∨ x = inf ∨ x = ninf) : parseJson R (pyDumps showNum v) = some v := by
  refine parseJson_dumps fun x hx => ?_
  rcases h x hx with h | rfl | rfl | rfl
  · exact ⟨h.first, fun _ hr => readScalar_num h hr⟩
  · have hw : NotANumber showNum R x := ⟨by rw [hs.1]; decide, h0, h1⟩
    exact ⟨word_first hw.word, fun rest _ => by rw [readScalar_word hw, hR, hs.1]; rfl⟩
  · have hw : NotANumber showNum R x := ⟨by rw [hs.2.1]; decide, h0, h1⟩
    exact ⟨word_first hw.word, fun rest _ => by rw [readScalar_word hw, hR, hs.2.1]; rfl⟩
  · have hw : NotANumber showNum R x := ⟨by rw [hs.2.2]; decide, h0, h1⟩
    exact ⟨word_first hw.word, fun rest _ => by rw [readScalar_word hw, hR, hs.2.2]; rfl⟩

/-! ### The documents of the graphs -/

mutual
theorem ofW_toW : ∀ j : Json, Json.ofW j.toW = j
  | .null => by rw [Json.toW, Json.ofW]
  | .bool _ => by rw [Json.toW, Json.ofW]
  | .num _ => by rw [Json.toW, Json.ofW]
  | .str _ => by rw [Json.toW, Json.ofW]
  | .arr l => by rw [Json.toW, Json.ofW, listOfW_toW l]
  | .obj l => by rw [Json.toW, Json.ofW, fieldsOfW_toW l]
theorem listOfW_toW : ∀ l : List Json, Json.listOfW (Json.listToW l) = l
  | [] => by rw [Json.listToW, Json.listOfW]
  | x :: xs => by rw [Json.listToW, Json.listOfW, ofW_toW x, listOfW_toW xs]
theorem fieldsOfW_toW : ∀ l : List (Text × Json), Json.fieldsOfW (Json.fieldsToW l) = l
  | [] => by rw [Json.fieldsToW, Json.fieldsOfW]
  | (k, x) :: xs => by rw [Json.fieldsToW, Json.fieldsOfW, ofW_toW x, fieldsOfW_toW xs]
end

theorem listToW_eq (l : List Json) : Json.listToW l = l.map Json.toW := by
  induction l with
  | nil => rw [Json.listToW]; rfl
  | cons x xs ih => rw [Json.listToW, ih]; rfl

/-- **C102**.  The text of a graph (`imagery.graph` of an answer, or the file the command line writes) is read as the graph that
was drawn: the entities with their places, sizes, colours and texts. -/
theorem C102_graph {showNum : ℝ → Text} {R : JsonReader ℝ} (es : List Entity) (W : ℝ) (H : Int)
    (h : ∀ x ∈ numbers (jsonDoc (es, W, H)).toW, Literal showNum R x) :
    ((parseJson R (jsonBackendText showNum (es, W, H))).bind fun v => readDoc (Json.ofW v)) = some (es, W, (H : ℝ)) := by
  unfold jsonBackendText
  rw [C102_round_trip h, Option.bind_some, ofW_toW, C58_round_trip]

/-- **C102**.  The canvas shows the graph whose text it was given. -/
theorem C102_canvas (measure : ℝ → Text → ℝ) {showNum : ℝ → Text} {R : JsonReader ℝ} {es : List Entity}
    (he : ∀ e ∈ es, Drawable e) (W : ℝ) (H : Int) (h : ∀ x ∈ numbers (jsonDoc (es, W, H)).toW, Literal showNum R x) :
    ∃ v calls, parseJson R (jsonBackendText showNum (es, W, H)) = some v ∧ jsDrawGraph measure (Json.ofW v) = .ok calls ∧
      ∀ k : Canvas, CanvasShows measure (k.after calls) (es, W, (H : ℝ)) := by
  obtain ⟨calls, h1, h2⟩ := C81_canvas measure he W H
  exact ⟨_, calls, C102_round_trip h, by rw [ofW_toW]; exact h1, h2⟩

/-- **C102**.  The animation is the text of one document with the texts of its frames as parts: writing the frames and reading
them again loses nothing, and the browser reads the animation that was computed. -/
theorem C102_animation {showNum : ℝ → Text} {Py Js : JsonReader ℝ} (fps : ℝ) (fs : List Frame)
    (hp : ∀ f ∈ fs, ∀ x ∈ numbers (jsonDoc f).toW, Literal showNum Py x)
    (hj : ∀ f ∈ fs, ∀ x ∈ numbers (jsonDoc f).toW, Literal showNum Js x) (hf : Literal showNum Js fps) :
    ∃ t v, jsonAnimatorWrite showNum Py fps (fs.map (jsonBackendText showNum)) = some t ∧ parseJson Js t = some v ∧
      Json.ofW v = .obj [("fps".toList, .num fps), ("frames".toList, .arr (fs.map jsonDoc))] ∧
      readAnimation (Json.ofW v) = some (fps, fs.map fun f => (f.1, f.2.1, (f.2.2 : ℝ))) := by
  have hm : (fs.map (jsonBackendText showNum)).mapM (parseJson Py) = some (fs.map fun f => (jsonDoc f).toW) := by
    have key : ∀ f ∈ fs, parseJson Py (jsonBackendText showNum f) = some (jsonDoc f).toW := fun f hf => C102_round_trip (hp f hf)
    clear hp hj
    generalize jsonBackendText showNum = F at key ⊢
    rw [List.mapM_map]
    exact mapM_some (F := parseJson Py ∘ F) (G := fun f => (jsonDoc f).toW) key
  have hl : ∀ x ∈ numbersOfList (fs.map fun f => (jsonDoc f).toW), Literal showNum Js x := by
    clear hm hp
    induction fs with
    | nil => simp [numbersOfList]
    | cons f fs ih =>
      intro x hx
      simp only [List.map_cons, numbersOfList, List.mem_append] at hx
      rcases hx with hx | hx
      · exact hj f (by simp) x hx
      · exact ih (fun g hg => hj g (by simp [hg])) x hx
  have hlist : Json.listOfW (fs.map fun f => (jsonDoc f).toW) = fs.map jsonDoc := by
    have := listOfW_toW (fs.map jsonDoc)
    rwa [listToW_eq, List.map_map] at this
  set v : WJson ℝ := .obj [("fps".toList, .num fps), ("frames".toList, .arr (fs.map fun f => (jsonDoc f).toW))] with hv
  set doc := Json.obj [("fps".toList, .num fps), ("frames".toList, .arr (fs.map jsonDoc))] with hd
  have hdoc : Json.ofW v = doc := by
    rw [hv, hd]
    simp only [Json.ofW, Json.fieldsOfW, hlist]
  have hw : jsonAnimatorWrite showNum Py fps (fs.map (jsonBackendText showNum)) = some (pyDumps showNum v) := by
    unfold jsonAnimatorWrite
    rw [hm]
    rfl
  refine ⟨_, v, hw, C102_round_trip ?_, hdoc, ?_⟩
  · intro x hx
    simp only [hv, numbers, numbersOfFields, List.mem_append, List.mem_singleton, List.not_mem_nil, or_false] at hx
    rcases hx with rfl | hx
    · exact hf
    · exact hl x hx
  · rw [hdoc]
    have hm : (fs.map jsonDoc).mapM readDoc = some (fs.map fun f => (f.1, f.2.1, (f.2.2 : ℝ))) := by
      rw [List.mapM_map]
      exact mapM_some fun f _ => C58_round_trip f.1 f.2.1 f.2.2
    have h1 : field doc "fps" = some (.num fps) := rfl
    have h2 : field doc "frames" = some (.arr (fs.map jsonDoc)) := rfl
    unfold readAnimation numField
    simp only [h1, h2, bind, Option.bind, asArr, asNum, pure, hm]

/-! ### Concrete numbers and documents -/

/-- Decimal digits of a natural number, for the examples. -/
def showNat (n : Nat) : Text := (Nat.repr n).toList

/-- The numbers 0, 15 and 207, and `NaN` (7). -/
def showSome (n : Nat) : Text := if n = 7 then "NaN".toList else showNat n

def readSome (t : Text) : Option Nat :=
  if t = "0".toList then some 0 else if t = "15".toList then some 15 else if t = "207".toList then some 207 else none

def jsSome : JsonReader Nat := ⟨readSome, []⟩

def pySome : JsonReader Nat := ⟨readSome, [("NaN".toList, 7)]⟩

def someDoc (n : Nat) : WJson Nat :=
  .obj [("a\"b".toList, .arr [.num 15, .num n, .null]), ([], .obj []), ("é😀\n".toList, .arr [.bool true, .str "x, ]".toList])]

theorem some_literal {R : JsonReader Nat} (h : R.number = readSome) {n : Nat} (hn : n ∈ [0, 15, 207]) : Literal showSome R n := by
  simp only [List.mem_cons, List.not_mem_nil, or_false] at hn
  rcases hn with rfl | rfl | rfl
  all_goals exact ⟨by decide, by decide, by rw [h]; decide⟩

example : parseJson jsSome (pyDumps showSome (someDoc 207)) = some (someDoc 207) :=
  C102_round_trip fun x hx => some_literal rfl (by
    simp only [someDoc, numbers, numbersOfFields, numbersOfList, List.mem_append, List.mem_singleton, List.not_mem_nil,
      or_false] at hx
    rcases hx with rfl | rfl <;> decide)

example : parseJson jsSome (pyDumps showSome (someDoc 7)) ≠ some (someDoc 7) := fun he =>
  have := (C102_browser (R := jsSome) (showNum := showSome) (v := someDoc 7) rfl fun x hx => by
    simp only [someDoc, numbers, numbersOfFields, numbersOfList, List.mem_append, List.mem_singleton, List.not_mem_nil,
      or_false] at hx
    rcases hx with rfl | rfl
    · exact .inl (some_literal rfl (by decide))
    · exact .inr ⟨by decide, rfl, rfl⟩).1 he 7 (by simp [someDoc, numbers, numbersOfFields, numbersOfList])
  absurd (this.chars 'N' (by decide)) (by decide)

example : pyDumps showSome (.obj [("é😀\n".toList, .arr [.num 15, .str ['<'] , .bool false])]) =
    "{\"\\u00e9\\ud83d\\ude00\\n\": [15, \"<\", false]}".toList := by
  decide +kernel

end TD
