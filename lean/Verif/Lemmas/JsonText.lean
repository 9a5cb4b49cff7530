import Verif.Spec.JsonText
import Mathlib.Tactic.IntervalCases
/-! JSON texts are read back. -/

namespace TD
open Spec
variable {α : Type}

theorem hexVal_hexDigit {n : Nat} (h : n < 16) : hexVal (hexDigit n) = some n := by
  interval_cases n <;> decide

theorem hex4_uEscape {n : Nat} (h : n < 0x10000) :
    hex4 (hexDigit (n / 4096 % 16)) (hexDigit (n / 256 % 16)) (hexDigit (n / 16 % 16)) (hexDigit (n % 16)) = some n := by
  simp only [hex4, hexVal_hexDigit (Nat.mod_lt _ (by norm_num : 0 < 16)), bind, Option.bind, pure]
  congr 1
  omega

theorem readUnits_uEscape {n : Nat} (h : n < 0x10000) (r : Text) :
    readUnits (uEscape n ++ r) = (readUnits r).map fun p => (n :: p.1, p.2) := by
  show readUnits ('\\' :: 'u' :: _ :: _ :: _ :: _ :: r) = _
  rw [readUnits]
  simp only [show ('\\' : Char) ≠ '"' by decide, ↓reduceIte, hex4_uEscape h]

theorem char_lt (c : Char) : c.toNat < 0x110000 := by
  have := c.valid
  rcases this with h | h
  · have : c.toNat < 0xd800 := h
    omega
  · exact h.2

theorem char_not_surrogate (c : Char) : c.toNat < 0xd800 ∨ 0xdfff < c.toNat := by
  rcases c.valid with h | h
  · exact .inl h
  · exact .inr h.1

theorem readUnits_short {e : Char} {u : Nat} (he : e ≠ 'u') (h : shortEscape e = some u) (r : Text) :
    readUnits ('\\' :: e :: r) = (readUnits r).map fun p => (u :: p.1, p.2) := by
  rw [readUnits.eq_def]
  simp only [show ('\\' : Char) ≠ '"' by decide, ↓reduceIte, he, h]

theorem readUnits_jsonChar (c : Char) (r : Text) :
    readUnits (jsonChar c ++ r) = (readUnits r).map fun p => (utf16 c ++ p.1, p.2) := by
  unfold jsonChar
  split_ifs with h1 h2 h3 h4 h5 h6 h7 h8 h9
  case pos => subst h1; exact readUnits_short (by decide) (by decide) r
  case pos => subst h2; exact readUnits_short (by decide) (by decide) r
  case pos => subst h3; exact readUnits_short (by decide) (by decide) r
  case pos => subst h4; exact readUnits_short (by decide) (by decide) r
  case pos => subst h5; exact readUnits_short (by decide) (by decide) r
  case pos => subst h6; exact readUnits_short (by decide) (by decide) r
  case pos => subst h7; exact readUnits_short (by decide) (by decide) r
  case pos =>
    show readUnits (c :: r) = _
    rw [readUnits.eq_def]
    simp only
    rw [if_neg h2, if_neg h1, if_neg (by omega)]
  case pos =>
    rw [readUnits_uEscape h9]
    simp [utf16, h9]
  case neg =>
    have := char_lt c
    rw [List.append_assoc, readUnits_uEscape (by omega), readUnits_uEscape (by omega), Option.map_map]
    simp [utf16, h9, Function.comp_def]

theorem readUnits_jsonChars (t r : Text) : readUnits (jsonChars t ++ r) = some (t.flatMap utf16, r) := by
  unfold jsonChars
  induction t with
  | nil =>
    show readUnits ('"' :: r) = _
    rw [readUnits.eq_def]
    simp
  | cons c t ih =>
    rw [List.flatMap_cons, List.append_assoc, List.append_assoc, readUnits_jsonChar, ← List.append_assoc, ih]
    simp

theorem decodeUnits_utf16 (t : Text) : decodeUnits (t.flatMap utf16) = some t := by
  induction t with
  | nil =>
    show decodeUnits [] = _
    rw [decodeUnits.eq_def]
  | cons c t ih =>
    rw [List.flatMap_cons]
    have h1 := char_lt c
    have h2 := char_not_surrogate c
    generalize t.flatMap utf16 = us at ih ⊢
    unfold utf16
    split_ifs with h
    · rw [List.singleton_append, decodeUnits.eq_def]
      simp only
      rw [if_neg (by omega), if_neg (by omega), ih]
      simp
    · rw [List.cons_append, List.singleton_append, decodeUnits.eq_def]
      simp only
      rw [if_pos (by omega), if_pos (by omega), ih]
      have : 0x10000 + (0xd800 + (c.toNat - 0x10000) / 0x400 - 0xd800) * 0x400 +
          (0xdc00 + (c.toNat - 0x10000) % 0x400 - 0xdc00) = c.toNat := by omega
      rw [this]
      simp

theorem readString_jsonChars (t r : Text) : readString (jsonChars t ++ r) = some (t, r) := by
  unfold readString
  rw [readUnits_jsonChars]
  simp [decodeUnits_utf16]

/-- What comes after a value does not continue a number. -/
def Ends (rest : Text) : Prop := ∀ c r, rest = c :: r → isNumChar c = false

theorem ends_nil : Ends [] := nofun
theorem ends_cons {c : Char} (h : isNumChar c = false) (r : Text) : Ends (c :: r) := by
  intro d s e; cases e; exact h

theorem skipWs_cons {c : Char} (h : isJsonSpace c = false) (r : Text) : skipWs (c :: r) = c :: r := by
  simp [skipWs, h]

theorem skipWs_space (r : Text) : skipWs (' ' :: r) = skipWs r := by
  simp [skipWs, isJsonSpace]

theorem eat_cons {c : Char} (h : isJsonSpace c = false) (d : Char) (r : Text) :
    eat d (c :: r) = if c = d then some r else none := by
  simp [eat, skipWs_cons h]

theorem eat_space (d : Char) (r : Text) : eat d (' ' :: r) = eat d r := by
  simp [eat, skipWs_space]

theorem takeWhile_num {w rest : Text} (h : ∀ c ∈ w, isNumChar c = true) (hr : Ends rest) :
    (w ++ rest).takeWhile isNumChar = w ∧ (w ++ rest).dropWhile isNumChar = rest := by
  induction w with
  | nil =>
    cases rest with
    | nil => exact ⟨rfl, rfl⟩
    | cons c r =>
      have := hr c r rfl
      simp [this]
  | cons c w ih =>
    have hc := h c (by simp)
    have := ih fun d hd => h d (by simp [hd])
    simp [hc, this]

theorem eatWord_ne {c d : Char} (h : c ≠ d) (w t : Text) : eatWord (c :: w) (d :: t) = none := by
  simp [eatWord, h]

theorem numChar_first {c : Char} (h : isNumChar c = true) :
    isJsonSpace c = false ∧ c ≠ '"' ∧ c ≠ '[' ∧ c ≠ '{' ∧ c ≠ ']' ∧ c ≠ '}' ∧ 'n' ≠ c ∧ 't' ≠ c ∧ 'f' ≠ c := by
  refine ⟨?_, ?_, ?_, ?_, ?_, ?_, ?_, ?_, ?_⟩
  · cases hs : isJsonSpace c
    · rfl
    · simp only [isJsonSpace, Bool.or_eq_true, decide_eq_true_eq] at hs
      rcases hs with ((rfl | rfl) | rfl) | rfl <;> exact absurd h (by decide)
  all_goals rintro rfl; exact absurd h (by decide)

variable {showNum : α → Text} {R : JsonReader α}

theorem readScalar_num {x : α} (h : Literal showNum R x) {rest : Text} (hr : Ends rest) :
    readScalar R (showNum x ++ rest) = some (.num x, rest) := by
  obtain ⟨c, w, e⟩ := List.exists_cons_of_ne_nil h.nonempty
  have hc : isNumChar c = true := h.chars c (by simp [e])
  obtain ⟨-, -, -, -, -, -, f1, f2, f3⟩ := numChar_first hc
  have ht := takeWhile_num h.chars hr
  unfold readScalar
  have h0 : readWord (α := α) [("null".toList, .null), ("true".toList, .bool true), ("false".toList, .bool false)] (showNum x ++ rest) = none := by
    rw [e]
    show (match eatWord ('n' :: "ull".toList) (c :: (w ++ rest)) with
      | some r => some (.null, r)
      | none => readWord [("true".toList, .bool true), ("false".toList, .bool false)] (c :: (w ++ rest))) = none
    rw [eatWord_ne f1]
    show (match eatWord ('t' :: "rue".toList) (c :: (w ++ rest)) with
      | some r => some (.bool true, r)
      | none => readWord [("false".toList, .bool false)] (c :: (w ++ rest))) = none
    rw [eatWord_ne f2]
    show (match eatWord ('f' :: "alse".toList) (c :: (w ++ rest)) with
      | some r => some (.bool false, r)
      | none => readWord [] (c :: (w ++ rest))) = none
    rw [eatWord_ne f3]
    rfl
  rw [h0]
  simp only [ht.1, ht.2, h.reads]

/-- The first character of a value: not white space and not the end of a list or object. -/
def Opens (t : Text) : Prop := ∃ c w, t = c :: w ∧ isJsonSpace c = false ∧ c ≠ ']' ∧ c ≠ '}'

/-- How the text of a number begins. -/
structure NumFirst (t : Text) : Prop where
  opens : Opens t
  quote : ∀ w, t ≠ '"' :: w
  list : ∀ w, t ≠ '[' :: w
  object : ∀ w, t ≠ '{' :: w

theorem NumFirst.append {t : Text} (h : NumFirst t) (rest : Text) (n : Nat) : readValue R (n + 1) (t ++ rest) = readScalar R (t ++ rest) := by
  obtain ⟨c, w, rfl, hs, -, -⟩ := h.opens
  rw [List.cons_append, readValue, skipWs_cons hs]
  simp only
  rw [if_neg fun e => h.quote w (by rw [e]), if_neg fun e => h.list w (by rw [e]), if_neg fun e => h.object w (by rw [e])]

theorem Spec.Literal.first {x : α} (h : Literal showNum R x) : NumFirst (showNum x) := by
  obtain ⟨c, w, e⟩ := List.exists_cons_of_ne_nil h.nonempty
  have hc : isNumChar c = true := h.chars c (by simp [e])
  obtain ⟨h0, h1, h2, h3, h4, h5, -⟩ := numChar_first hc
  rw [e]
  refine ⟨⟨c, w, rfl, h0, h4, h5⟩, ?_, ?_, ?_⟩ <;> intro w' e' <;> cases e' <;> contradiction

theorem pyDumps_opens {v : WJson α} (h : ∀ x ∈ numbers v, Opens (showNum x)) : Opens (pyDumps showNum v) := by
  cases v with
  | null => exact ⟨_, _, rfl, by decide⟩
  | bool b => cases b <;> exact ⟨_, _, rfl, by decide⟩
  | num x => simpa [pyDumps] using h x (by simp [numbers])
  | str t => exact ⟨_, _, rfl, by decide⟩
  | arr l => cases l <;> exact ⟨_, _, rfl, by decide⟩
  | obj l =>
    cases l with
    | nil => exact ⟨_, _, rfl, by decide⟩
    | cons p l => exact ⟨_, _, rfl, by decide⟩

theorem Opens.append {t : Text} (h : Opens t) (r : Text) : Opens (t ++ r) := by
  obtain ⟨c, w, rfl, h⟩ := h
  exact ⟨c, w ++ r, rfl, h⟩

theorem Opens.not_end {t : Text} (h : Opens t) : eat ']' t = none ∧ eat '}' t = none := by
  obtain ⟨c, w, rfl, h0, h1, h2⟩ := h
  rw [eat_cons h0, eat_cons h0, if_neg h1, if_neg h2]
  exact ⟨rfl, rfl⟩

theorem readValue_space (n : Nat) (t : Text) : readValue R n (' ' :: t) = readValue R n t := by
  cases n with
  | zero => rw [readValue, readValue]
  | succ n => rw [readValue, readValue, skipWs_space]

theorem readItems_space (n : Nat) (t : Text) : readItems R n (' ' :: t) = readItems R n t := by
  cases n with
  | zero => rw [readItems, readItems]
  | succ n => rw [readItems, readItems, readValue_space]

theorem readFields_space (n : Nat) (t : Text) : readFields R n (' ' :: t) = readFields R n t := by
  cases n with
  | zero => rw [readFields, readFields]
  | succ n => rw [readFields, readFields, eat_space]

theorem pyItems_ends (l : List (WJson α)) (rest : Text) : Ends (pyItems showNum l ++ rest) := by
  cases l with
  | nil => rw [pyItems]; exact ends_cons (by decide) _
  | cons x xs => rw [pyItems]; exact ends_cons (by decide) _

theorem pyFields_ends (l : List (Text × WJson α)) (rest : Text) : Ends (pyFields showNum l ++ rest) := by
  cases l with
  | nil => rw [pyFields]; exact ends_cons (by decide) _
  | cons x xs => obtain ⟨k, x⟩ := x; rw [pyFields]; exact ends_cons (by decide) _

/-- The text of `x` is read as `x`. -/
structure NumReads (showNum : α → Text) (R : JsonReader α) (x : α) : Prop where
  first : NumFirst (showNum x)
  scalar : ∀ rest, Ends rest → readScalar R (showNum x ++ rest) = some (.num x, rest)

mutual
theorem readValue_dumps : ∀ (v : WJson α), (∀ x ∈ numbers v, NumReads showNum R x) → ∀ (n : Nat) (rest : Text), Ends rest →
    2 * (pyDumps showNum v).length ≤ n → 0 < n → readValue R n (pyDumps showNum v ++ rest) = some (v, rest)
  | .null, _, n + 1, rest, _, _, _ => by
    simp only [pyDumps]
    rfl
  | .bool true, _, n + 1, rest, _, _, _ => by
    simp only [pyDumps]
    rfl
  | .bool false, _, n + 1, rest, _, _, _ => by
    simp only [pyDumps]
    rfl
  | .num x, h, n + 1, rest, hr, _, _ => by
    have := h x (by simp [numbers])
    rw [pyDumps, this.first.append, this.scalar rest hr]
  | .str t, _, n + 1, rest, _, _, _ => by
    rw [pyDumps, List.cons_append, readValue, skipWs_cons (by decide)]
    simp only [↓reduceIte, readString_jsonChars, Option.map_some]
  | .arr [], _, n + 1, rest, _, _, _ => by
    simp only [pyDumps]
    rfl
  | .arr (x :: xs), h, n + 1, rest, hr, hn, _ => by
    have hx : ∀ y ∈ numbers x, NumReads showNum R y := fun y hy => h y (by simp [numbers, numbersOfList, hy])
    have hxs : ∀ y ∈ numbersOfList xs, NumReads showNum R y := fun y hy => h y (by simp [numbers, numbersOfList, hy])
    have ho : Opens (pyDumps showNum x) := pyDumps_opens fun y hy => (hx y hy).first.opens
    have hlen : 0 < (pyDumps showNum x).length := by obtain ⟨c, w, e, -⟩ := ho; rw [e]; simp
    simp only [pyDumps, List.length_cons, List.length_append] at hn
    rw [pyDumps, List.cons_append, readValue, skipWs_cons (by decide)]
    simp only [show ('[' : Char) ≠ '"' by decide, ↓reduceIte, List.append_assoc, (ho.append _).not_end.1]
    obtain ⟨m, rfl⟩ : ∃ m, n = m + 1 := ⟨n - 1, by omega⟩
    rw [readItems, readValue_dumps x hx m _ (pyItems_ends xs rest) (by omega) (by omega)]
    simp only
    rw [readItemsTail_dumps xs hxs m rest (by omega)]
    rfl
  | .obj [], _, n + 1, rest, _, _, _ => by
    simp only [pyDumps]
    rfl
  | .obj ((k, x) :: xs), h, n + 1, rest, hr, hn, _ => by
    have hx : ∀ y ∈ numbers x, NumReads showNum R y := fun y hy => h y (by simp [numbers, numbersOfFields, hy])
    have hxs : ∀ y ∈ numbersOfFields xs, NumReads showNum R y := fun y hy => h y (by simp [numbers, numbersOfFields, hy])
    have ho : Opens (pyDumps showNum x) := pyDumps_opens fun y hy => (hx y hy).first.opens
    have hlen : 0 < (pyDumps showNum x).length := by obtain ⟨c, w, e, -⟩ := ho; rw [e]; simp
    simp only [pyDumps, List.length_cons, List.length_append] at hn
    rw [pyDumps, List.cons_append, List.cons_append, readValue, skipWs_cons (by decide)]
    simp only [show ('{' : Char) ≠ '"' by decide, show ('{' : Char) ≠ '[' by decide, ↓reduceIte, List.append_assoc]
    rw [eat_cons (by decide), if_neg (by decide)]
    simp only
    obtain ⟨m, rfl⟩ : ∃ m, n = m + 1 := ⟨n - 1, by omega⟩
    rw [readFields, eat_cons (by decide), if_pos rfl]
    simp only [readString_jsonChars, List.cons_append]
    rw [eat_cons (by decide), if_pos rfl]
    simp only [List.append_assoc]
    rw [readValue_space, readValue_dumps x hx m _ (pyFields_ends xs rest) (by omega) (by omega)]
    simp only
    rw [readFieldsTail_dumps xs hxs m rest (by omega)]
    rfl
theorem readItemsTail_dumps : ∀ (l : List (WJson α)), (∀ x ∈ numbersOfList l, NumReads showNum R x) → ∀ (n : Nat) (rest : Text),
    2 * (pyItems showNum l).length ≤ n → readItemsTail R n (pyItems showNum l ++ rest) = some (l, rest)
  | [], _, 0, rest, hn => by simp [pyItems] at hn
  | [], _, n + 1, rest, hn => by
    simp only [pyItems]
    rfl
  | x :: xs, h, n, rest, hn => by
    have hx : ∀ y ∈ numbers x, NumReads showNum R y := fun y hy => h y (by simp [numbersOfList, hy])
    have hxs : ∀ y ∈ numbersOfList xs, NumReads showNum R y := fun y hy => h y (by simp [numbersOfList, hy])
    have ho : Opens (pyDumps showNum x) := pyDumps_opens fun y hy => (hx y hy).first.opens
    have hlen : 0 < (pyDumps showNum x).length := by obtain ⟨c, w, e, -⟩ := ho; rw [e]; simp
    simp only [pyItems, List.length_cons, List.length_append] at hn
    obtain ⟨m, rfl⟩ : ∃ m, n = m + 2 := ⟨n - 2, by omega⟩
    rw [pyItems, List.cons_append, List.cons_append, readItemsTail, eat_cons (by decide), if_pos rfl]
    simp only [List.append_assoc]
    rw [readItems_space, readItems, readValue_dumps x hx m _ (pyItems_ends xs rest) (by omega) (by omega)]
    simp only
    rw [readItemsTail_dumps xs hxs m rest (by omega)]
    rfl
theorem readFieldsTail_dumps : ∀ (l : List (Text × WJson α)), (∀ x ∈ numbersOfFields l, NumReads showNum R x) → ∀ (n : Nat) (rest : Text),
    2 * (pyFields showNum l).length ≤ n → readFieldsTail R n (pyFields showNum l ++ rest) = some (l, rest)
  | [], _, 0, rest, hn => by simp [pyFields] at hn
  | [], _, n + 1, rest, hn => by
    simp only [pyFields]
    rfl
  | (k, x) :: xs, h, n, rest, hn => by
    have hx : ∀ y ∈ numbers x, NumReads showNum R y := fun y hy => h y (by simp [numbersOfFields, hy])
    have hxs : ∀ y ∈ numbersOfFields xs, NumReads showNum R y := fun y hy => h y (by simp [numbersOfFields, hy])
    have ho : Opens (pyDumps showNum x) := pyDumps_opens fun y hy => (hx y hy).first.opens
    have hlen : 0 < (pyDumps showNum x).length := by obtain ⟨c, w, e, -⟩ := ho; rw [e]; simp
    simp only [pyFields, List.length_cons, List.length_append] at hn
    obtain ⟨m, rfl⟩ : ∃ m, n = m + 2 := ⟨n - 2, by omega⟩
    rw [pyFields, List.cons_append, List.cons_append, List.cons_append, readFieldsTail, eat_cons (by decide), if_pos rfl]
    simp only [List.append_assoc]
    rw [readFields_space, readFields, eat_cons (by decide), if_pos rfl]
    simp only [readString_jsonChars, List.cons_append]
    rw [eat_cons (by decide), if_pos rfl]
    simp only [List.append_assoc]
    rw [readValue_space, readValue_dumps x hx m _ (pyFields_ends xs rest) (by omega) (by omega)]
    simp only
    rw [readFieldsTail_dumps xs hxs m rest (by omega)]
    rfl
end

theorem parseJson_dumps {v : WJson α} (h : ∀ x ∈ numbers v, NumReads showNum R x) : parseJson R (pyDumps showNum v) = some v := by
  have := readValue_dumps v h (2 * (pyDumps showNum v).length + 2) [] ends_nil (by omega) (by omega)
  rw [List.append_nil] at this
  unfold parseJson
  rw [this]
  rfl

/-! ### Numbers that are none -/

/-- The text of `x` is refused. -/
structure NumFails (showNum : α → Text) (R : JsonReader α) (x : α) : Prop where
  first : NumFirst (showNum x)
  scalar : ∀ rest, readScalar R (showNum x ++ rest) = none

mutual
theorem readValue_fails : ∀ (v : WJson α), (∀ x ∈ numbers v, NumReads showNum R x ∨ NumFails showNum R x) →
    (∃ x ∈ numbers v, NumFails showNum R x) → ∀ (n : Nat) (rest : Text), Ends rest →
    2 * (pyDumps showNum v).length ≤ n → 0 < n → readValue R n (pyDumps showNum v ++ rest) = none
  | .null, _, h, _, _, _, _, _ => by simp [numbers] at h
  | .bool _, _, h, _, _, _, _, _ => by simp [numbers] at h
  | .str _, _, h, _, _, _, _, _ => by simp [numbers] at h
  | .num x, _, h, n + 1, rest, _, _, _ => by
    have := h.choose_spec
    simp only [numbers, List.mem_singleton] at this
    have hx := this.1 ▸ this.2
    rw [pyDumps, hx.first.append, hx.scalar rest]
  | .arr [], _, h, _, _, _, _, _ => by simp [numbers, numbersOfList] at h
  | .arr (x :: xs), ha, h, n + 1, rest, hr, hn, _ => by
    have hx : ∀ y ∈ numbers x, NumReads showNum R y ∨ NumFails showNum R y := fun y hy => ha y (by simp [numbers, numbersOfList, hy])
    have hxs : ∀ y ∈ numbersOfList xs, NumReads showNum R y ∨ NumFails showNum R y :=
      fun y hy => ha y (by simp [numbers, numbersOfList, hy])
    have ho : Opens (pyDumps showNum x) := pyDumps_opens fun y hy => (hx y hy).elim (·.first.opens) (·.first.opens)
    have hlen : 0 < (pyDumps showNum x).length := by obtain ⟨c, w, e, -⟩ := ho; rw [e]; simp
    simp only [pyDumps, List.length_cons, List.length_append] at hn
    rw [pyDumps, List.cons_append, readValue, skipWs_cons (by decide)]
    simp only [show ('[' : Char) ≠ '"' by decide, ↓reduceIte, List.append_assoc, (ho.append _).not_end.1]
    obtain ⟨m, rfl⟩ : ∃ m, n = m + 1 := ⟨n - 1, by omega⟩
    rw [readItems]
    by_cases hb : ∃ y ∈ numbers x, NumFails showNum R y
    · rw [readValue_fails x hx hb m _ (pyItems_ends xs rest) (by omega) (by omega)]
      rfl
    · rw [readValue_dumps x (fun y hy => (hx y hy).resolve_right fun hf => hb ⟨y, hy, hf⟩) m _ (pyItems_ends xs rest) (by omega) (by omega)]
      simp only
      rw [readItemsTail_fails xs hxs ?_ m rest (by omega)]
      · rfl
      obtain ⟨y, hy, hf⟩ := h
      simp only [numbers, numbersOfList, List.mem_append] at hy
      exact ⟨y, hy.resolve_left fun hy => hb ⟨y, hy, hf⟩, hf⟩
  | .obj [], _, h, _, _, _, _, _ => by simp [numbers, numbersOfFields] at h
  | .obj ((k, x) :: xs), ha, h, n + 1, rest, hr, hn, _ => by
    have hx : ∀ y ∈ numbers x, NumReads showNum R y ∨ NumFails showNum R y := fun y hy => ha y (by simp [numbers, numbersOfFields, hy])
    have hxs : ∀ y ∈ numbersOfFields xs, NumReads showNum R y ∨ NumFails showNum R y :=
      fun y hy => ha y (by simp [numbers, numbersOfFields, hy])
    have ho : Opens (pyDumps showNum x) := pyDumps_opens fun y hy => (hx y hy).elim (·.first.opens) (·.first.opens)
    have hlen : 0 < (pyDumps showNum x).length := by obtain ⟨c, w, e, -⟩ := ho; rw [e]; simp
    simp only [pyDumps, List.length_cons, List.length_append] at hn
    rw [pyDumps, List.cons_append, List.cons_append, readValue, skipWs_cons (by decide)]
    simp only [show ('{' : Char) ≠ '"' by decide, show ('{' : Char) ≠ '[' by decide, ↓reduceIte, List.append_assoc]
    rw [eat_cons (by decide), if_neg (by decide)]
    simp only
    obtain ⟨m, rfl⟩ : ∃ m, n = m + 1 := ⟨n - 1, by omega⟩
    rw [readFields, eat_cons (by decide), if_pos rfl]
    simp only [readString_jsonChars, List.cons_append]
    rw [eat_cons (by decide), if_pos rfl]
    simp only [List.append_assoc]
    rw [readValue_space]
    by_cases hb : ∃ y ∈ numbers x, NumFails showNum R y
    · rw [readValue_fails x hx hb m _ (pyFields_ends xs rest) (by omega) (by omega)]
      rfl
    · rw [readValue_dumps x (fun y hy => (hx y hy).resolve_right fun hf => hb ⟨y, hy, hf⟩) m _ (pyFields_ends xs rest) (by omega) (by omega)]
      simp only
      rw [readFieldsTail_fails xs hxs ?_ m rest (by omega)]
      · rfl
      obtain ⟨y, hy, hf⟩ := h
      simp only [numbers, numbersOfFields, List.mem_append] at hy
      exact ⟨y, hy.resolve_left fun hy => hb ⟨y, hy, hf⟩, hf⟩
theorem readItemsTail_fails : ∀ (l : List (WJson α)), (∀ x ∈ numbersOfList l, NumReads showNum R x ∨ NumFails showNum R x) →
    (∃ x ∈ numbersOfList l, NumFails showNum R x) → ∀ (n : Nat) (rest : Text),
    2 * (pyItems showNum l).length ≤ n → readItemsTail R n (pyItems showNum l ++ rest) = none
  | [], _, h, _, _, _ => by simp [numbersOfList] at h
  | x :: xs, ha, h, n, rest, hn => by
    have hx : ∀ y ∈ numbers x, NumReads showNum R y ∨ NumFails showNum R y := fun y hy => ha y (by simp [numbersOfList, hy])
    have hxs : ∀ y ∈ numbersOfList xs, NumReads showNum R y ∨ NumFails showNum R y :=
      fun y hy => ha y (by simp [numbersOfList, hy])
    have ho : Opens (pyDumps showNum x) := pyDumps_opens fun y hy => (hx y hy).elim (·.first.opens) (·.first.opens)
    have hlen : 0 < (pyDumps showNum x).length := by obtain ⟨c, w, e, -⟩ := ho; rw [e]; simp
    simp only [pyItems, List.length_cons, List.length_append] at hn
    obtain ⟨m, rfl⟩ : ∃ m, n = m + 2 := ⟨n - 2, by omega⟩
    rw [pyItems, List.cons_append, List.cons_append, readItemsTail, eat_cons (by decide), if_pos rfl]
    simp only [List.append_assoc]
    rw [readItems_space, readItems]
    by_cases hb : ∃ y ∈ numbers x, NumFails showNum R y
    · rw [readValue_fails x hx hb m _ (pyItems_ends xs rest) (by omega) (by omega)]
    · rw [readValue_dumps x (fun y hy => (hx y hy).resolve_right fun hf => hb ⟨y, hy, hf⟩) m _ (pyItems_ends xs rest) (by omega) (by omega)]
      simp only
      rw [readItemsTail_fails xs hxs ?_ m rest (by omega)]
      · rfl
      obtain ⟨y, hy, hf⟩ := h
      simp only [numbersOfList, List.mem_append] at hy
      exact ⟨y, hy.resolve_left fun hy => hb ⟨y, hy, hf⟩, hf⟩
theorem readFieldsTail_fails : ∀ (l : List (Text × WJson α)), (∀ x ∈ numbersOfFields l, NumReads showNum R x ∨ NumFails showNum R x) →
    (∃ x ∈ numbersOfFields l, NumFails showNum R x) → ∀ (n : Nat) (rest : Text),
    2 * (pyFields showNum l).length ≤ n → readFieldsTail R n (pyFields showNum l ++ rest) = none
  | [], _, h, _, _, _ => by simp [numbersOfFields] at h
  | (k, x) :: xs, ha, h, n, rest, hn => by
    have hx : ∀ y ∈ numbers x, NumReads showNum R y ∨ NumFails showNum R y := fun y hy => ha y (by simp [numbersOfFields, hy])
    have hxs : ∀ y ∈ numbersOfFields xs, NumReads showNum R y ∨ NumFails showNum R y :=
      fun y hy => ha y (by simp [numbersOfFields, hy])
    have ho : Opens (pyDumps showNum x) := pyDumps_opens fun y hy => (hx y hy).elim (·.first.opens) (·.first.opens)
    have hlen : 0 < (pyDumps showNum x).length := by obtain ⟨c, w, e, -⟩ := ho; rw [e]; simp
    simp only [pyFields, List.length_cons, List.length_append] at hn
    obtain ⟨m, rfl⟩ : ∃ m, n = m + 2 := ⟨n - 2, by omega⟩
    rw [pyFields, List.cons_append, List.cons_append, List.cons_append, readFieldsTail, eat_cons (by decide), if_pos rfl]
    simp only [List.append_assoc]
    rw [readFields_space, readFields, eat_cons (by decide), if_pos rfl]
    simp only [readString_jsonChars, List.cons_append]
    rw [eat_cons (by decide), if_pos rfl]
    simp only [List.append_assoc]
    rw [readValue_space]
    by_cases hb : ∃ y ∈ numbers x, NumFails showNum R y
    · rw [readValue_fails x hx hb m _ (pyFields_ends xs rest) (by omega) (by omega)]
    · rw [readValue_dumps x (fun y hy => (hx y hy).resolve_right fun hf => hb ⟨y, hy, hf⟩) m _ (pyFields_ends xs rest) (by omega) (by omega)]
      simp only
      rw [readFieldsTail_fails xs hxs ?_ m rest (by omega)]
      · rfl
      obtain ⟨y, hy, hf⟩ := h
      simp only [numbersOfFields, List.mem_append] at hy
      exact ⟨y, hy.resolve_left fun hy => hb ⟨y, hy, hf⟩, hf⟩
end

theorem parseJson_fails {v : WJson α} (h : ∀ x ∈ numbers v, NumReads showNum R x ∨ NumFails showNum R x)
    (hb : ∃ x ∈ numbers v, NumFails showNum R x) : parseJson R (pyDumps showNum v) = none := by
  have := readValue_fails v h hb (2 * (pyDumps showNum v).length + 2) [] ends_nil (by omega) (by omega)
  rw [List.append_nil] at this
  unfold parseJson
  rw [this]

/-! ### The characters written -/

theorem hexDigit_print {n : Nat} (h : n < 16) : 32 ≤ (hexDigit n).toNat ∧ (hexDigit n).toNat ≤ 126 := by
  interval_cases n <;> decide

theorem uEscape_print (n : Nat) : ∀ c ∈ uEscape n, 32 ≤ c.toNat ∧ c.toNat ≤ 126 := by
  intro c hc
  simp only [uEscape, List.mem_cons, List.not_mem_nil, or_false] at hc
  rcases hc with rfl | rfl | rfl | rfl | rfl | rfl
  · decide
  · decide
  all_goals exact hexDigit_print (Nat.mod_lt _ (by norm_num))

theorem jsonChar_print (c : Char) : ∀ d ∈ jsonChar c, 32 ≤ d.toNat ∧ d.toNat ≤ 126 := by
  unfold jsonChar
  split_ifs with h1 h2 h3 h4 h5 h6 h7 h8 h9
  case pos => decide
  case pos => decide
  case pos => decide
  case pos => decide
  case pos => decide
  case pos => decide
  case pos => decide
  case pos => intro d hd; rw [List.mem_singleton.1 hd]; exact h8
  case pos => exact uEscape_print _
  case neg =>
    intro d hd
    rcases List.mem_append.1 hd with h | h
    · exact uEscape_print _ d h
    · exact uEscape_print _ d h

theorem jsonChars_print (t : Text) : ∀ d ∈ jsonChars t, 32 ≤ d.toNat ∧ d.toNat ≤ 126 := by
  intro d hd
  rcases List.mem_append.1 hd with h | h
  · obtain ⟨c, -, h⟩ := List.mem_flatMap.1 h
    exact jsonChar_print c d h
  · rw [List.mem_singleton.1 h]; decide

mutual
theorem pyDumps_print : ∀ (v : WJson α), (∀ x ∈ numbers v, ∀ c ∈ showNum x, 32 ≤ c.toNat ∧ c.toNat ≤ 126) →
    ∀ c ∈ pyDumps showNum v, 32 ≤ c.toNat ∧ c.toNat ≤ 126
  | .null, _ => by rw [pyDumps]; decide
  | .bool true, _ => by rw [pyDumps]; decide
  | .bool false, _ => by rw [pyDumps]; decide
  | .num x, h => by rw [pyDumps]; exact h x (by simp [numbers])
  | .str t, _ => by
    rw [pyDumps]
    intro c hc
    rcases List.mem_cons.1 hc with rfl | hc
    · decide
    · exact jsonChars_print t c hc
  | .arr [], _ => by rw [pyDumps]; decide
  | .arr (x :: xs), h => by
    rw [pyDumps]
    intro c hc
    simp only [List.mem_cons, List.mem_append] at hc
    rcases hc with rfl | hc | hc
    · decide
    · exact pyDumps_print x (fun y hy => h y (by simp [numbers, numbersOfList, hy])) c hc
    · exact pyItems_print xs (fun y hy => h y (by simp [numbers, numbersOfList, hy])) c hc
  | .obj [], _ => by rw [pyDumps]; decide
  | .obj ((k, x) :: xs), h => by
    rw [pyDumps]
    intro c hc
    simp only [List.mem_cons, List.mem_append] at hc
    rcases hc with rfl | rfl | hc | rfl | rfl | hc | hc
    · decide
    · decide
    · exact jsonChars_print k c hc
    · decide
    · decide
    · exact pyDumps_print x (fun y hy => h y (by simp [numbers, numbersOfFields, hy])) c hc
    · exact pyFields_print xs (fun y hy => h y (by simp [numbers, numbersOfFields, hy])) c hc
theorem pyItems_print : ∀ (l : List (WJson α)), (∀ x ∈ numbersOfList l, ∀ c ∈ showNum x, 32 ≤ c.toNat ∧ c.toNat ≤ 126) →
    ∀ c ∈ pyItems showNum l, 32 ≤ c.toNat ∧ c.toNat ≤ 126
  | [], _ => by rw [pyItems]; decide
  | x :: xs, h => by
    rw [pyItems]
    intro c hc
    simp only [List.mem_cons, List.mem_append] at hc
    rcases hc with rfl | rfl | hc | hc
    · decide
    · decide
    · exact pyDumps_print x (fun y hy => h y (by simp [numbersOfList, hy])) c hc
    · exact pyItems_print xs (fun y hy => h y (by simp [numbersOfList, hy])) c hc
theorem pyFields_print : ∀ (l : List (Text × WJson α)), (∀ x ∈ numbersOfFields l, ∀ c ∈ showNum x, 32 ≤ c.toNat ∧ c.toNat ≤ 126) →
    ∀ c ∈ pyFields showNum l, 32 ≤ c.toNat ∧ c.toNat ≤ 126
  | [], _ => by rw [pyFields]; decide
  | (k, x) :: xs, h => by
    rw [pyFields]
    intro c hc
    simp only [List.mem_cons, List.mem_append] at hc
    rcases hc with rfl | rfl | rfl | hc | rfl | rfl | hc | hc
    · decide
    · decide
    · decide
    · exact jsonChars_print k c hc
    · decide
    · decide
    · exact pyDumps_print x (fun y hy => h y (by simp [numbersOfFields, hy])) c hc
    · exact pyFields_print xs (fun y hy => h y (by simp [numbersOfFields, hy])) c hc
end

end TD
