import Verif.Model.AnswerText
import Verif.Lemmas.JsonText
/-! # Reading JSON texts with white space -/

namespace TD
open Spec

variable {α : Type} {showNum : α → Text} {R : JsonReader α} {st : JsonStyle}

/-- White space only. -/
def AllSpace (t : Text) : Prop := ∀ c ∈ t, isJsonSpace c = true

/-- A style writes white space only. -/
structure JsonStyle.Blank (st : JsonStyle) : Prop where
  line : ∀ n, AllSpace (st.line n)
  next : ∀ n, AllSpace (st.next n)
  colon : AllSpace st.colon

theorem skipWs_append {t : Text} (h : AllSpace t) (r : Text) : skipWs (t ++ r) = skipWs r := by
  induction t with
  | nil => rfl
  | cons c t ih =>
    have hc := h c (by simp)
    have ih := ih fun d hd => h d (by simp [hd])
    unfold skipWs at ih ⊢
    rw [List.cons_append, List.dropWhile_cons, if_pos hc]
    exact ih

theorem eat_append {t : Text} (h : AllSpace t) (d : Char) (r : Text) : eat d (t ++ r) = eat d r := by
  unfold eat
  rw [skipWs_append h]

theorem readValue_append {t : Text} (h : AllSpace t) (n : Nat) (r : Text) : readValue R n (t ++ r) = readValue R n r := by
  cases n with
  | zero => rw [readValue, readValue]
  | succ n => rw [readValue, readValue, skipWs_append h]

theorem readItems_append {t : Text} (h : AllSpace t) (n : Nat) (r : Text) : readItems R n (t ++ r) = readItems R n r := by
  cases n with
  | zero => rw [readItems, readItems]
  | succ n => rw [readItems, readItems, readValue_append h]

theorem readFields_append {t : Text} (h : AllSpace t) (n : Nat) (r : Text) : readFields R n (t ++ r) = readFields R n r := by
  cases n with
  | zero => rw [readFields, readFields]
  | succ n => rw [readFields, readFields, eat_append h]

theorem space_not_num {c : Char} (h : isJsonSpace c = true) : isNumChar c = false := by
  simp only [isJsonSpace, Bool.or_eq_true, decide_eq_true_iff] at h
  rcases h with ((rfl | rfl) | rfl) | rfl <;> decide

theorem ends_append {t : Text} (h : AllSpace t) {r : Text} (hr : Ends r) : Ends (t ++ r) := by
  cases t with
  | nil => exact hr
  | cons c t => exact ends_cons (space_not_num (h c (by simp))) _

theorem jsonText_opens {v : WJson α} (h : ∀ x ∈ numbers v, Opens (showNum x)) (n : Nat) : Opens (jsonText st showNum n v) := by
  cases v with
  | null => exact ⟨_, _, rfl, by decide⟩
  | bool b => cases b <;> exact ⟨_, _, rfl, by decide⟩
  | num x => simpa [jsonText] using h x (by simp [numbers])
  | str t => exact ⟨_, _, rfl, by decide⟩
  | arr l =>
    cases l with
    | nil => exact ⟨_, _, by rw [jsonText], by decide⟩
    | cons x l => exact ⟨_, _, by rw [jsonText], by decide⟩
  | obj l =>
    cases l with
    | nil => exact ⟨_, _, by rw [jsonText], by decide⟩
    | cons p l => obtain ⟨k, x⟩ := p; exact ⟨_, _, by rw [jsonText], by decide⟩

theorem jsonItems_ends (hs : st.Blank) (n : Nat) (l : List (WJson α)) (rest : Text) : Ends (jsonItems st showNum n l ++ rest) := by
  cases l with
  | nil =>
    rw [jsonItems, List.append_assoc]
    exact ends_append (hs.line n) (ends_cons (by decide) _)
  | cons x xs => rw [jsonItems]; exact ends_cons (by decide) _

theorem jsonFields_ends (hs : st.Blank) (n : Nat) (l : List (Text × WJson α)) (rest : Text) :
    Ends (jsonFields st showNum n l ++ rest) := by
  cases l with
  | nil =>
    rw [jsonFields, List.append_assoc]
    exact ends_append (hs.line n) (ends_cons (by decide) _)
  | cons x xs => obtain ⟨k, x⟩ := x; rw [jsonFields]; exact ends_cons (by decide) _

mutual
theorem readValue_text (hs : st.Blank) : ∀ (v : WJson α), (∀ x ∈ numbers v, NumReads showNum R x) → ∀ (d n : Nat) (rest : Text),
    Ends rest → 2 * (jsonText st showNum d v).length ≤ n → 0 < n → readValue R n (jsonText st showNum d v ++ rest) = some (v, rest)
  | .null, _, d, n + 1, rest, _, _, _ => by
    simp only [jsonText]
    rfl
  | .bool true, _, d, n + 1, rest, _, _, _ => by
    simp only [jsonText]
    rfl
  | .bool false, _, d, n + 1, rest, _, _, _ => by
    simp only [jsonText]
    rfl
  | .num x, h, d, n + 1, rest, hr, _, _ => by
    have := h x (by simp [numbers])
    rw [jsonText, this.first.append, this.scalar rest hr]
  | .str t, _, d, n + 1, rest, _, _, _ => by
    rw [jsonText, List.cons_append, readValue, skipWs_cons (by decide)]
    simp only [↓reduceIte, readString_jsonChars, Option.map_some]
  | .arr [], _, d, n + 1, rest, _, _, _ => by
    simp only [jsonText]
    rfl
  | .arr (x :: xs), h, d, n + 1, rest, hr, hn, _ => by
    have hx : ∀ y ∈ numbers x, NumReads showNum R y := fun y hy => h y (by simp [numbers, numbersOfList, hy])
    have hxs : ∀ y ∈ numbersOfList xs, NumReads showNum R y := fun y hy => h y (by simp [numbers, numbersOfList, hy])
    have ho : Opens (jsonText st showNum (d + 1) x) := jsonText_opens (fun y hy => (hx y hy).first.opens) _
    have hlen : 0 < (jsonText st showNum (d + 1) x).length := by obtain ⟨c, w, e, -⟩ := ho; rw [e]; simp
    simp only [jsonText, List.length_cons, List.length_append] at hn
    rw [jsonText, List.cons_append, readValue, skipWs_cons (by decide)]
    simp only [show ('[' : Char) ≠ '"' by decide, ↓reduceIte, List.append_assoc, eat_append (hs.line (d + 1)),
      (ho.append _).not_end.1]
    obtain ⟨m, rfl⟩ : ∃ m, n = m + 1 := ⟨n - 1, by omega⟩
    rw [readItems_append (hs.line (d + 1)), readItems,
      readValue_text hs x hx (d + 1) m _ (jsonItems_ends hs d xs rest) (by omega) (by omega)]
    simp only
    rw [readItemsTail_text hs xs hxs d m rest (by omega)]
    rfl
  | .obj [], _, d, n + 1, rest, _, _, _ => by
    simp only [jsonText]
    rfl
  | .obj ((k, x) :: xs), h, d, n + 1, rest, hr, hn, _ => by
    have hx : ∀ y ∈ numbers x, NumReads showNum R y := fun y hy => h y (by simp [numbers, numbersOfFields, hy])
    have hxs : ∀ y ∈ numbersOfFields xs, NumReads showNum R y := fun y hy => h y (by simp [numbers, numbersOfFields, hy])
    have ho : Opens (jsonText st showNum (d + 1) x) := jsonText_opens (fun y hy => (hx y hy).first.opens) _
    have hlen : 0 < (jsonText st showNum (d + 1) x).length := by obtain ⟨c, w, e, -⟩ := ho; rw [e]; simp
    simp only [jsonText, List.length_cons, List.length_append] at hn
    rw [jsonText, List.cons_append, readValue, skipWs_cons (by decide)]
    simp only [show ('{' : Char) ≠ '"' by decide, show ('{' : Char) ≠ '[' by decide, ↓reduceIte, List.append_assoc,
      List.cons_append]
    rw [eat_append (hs.line (d + 1)), eat_cons (by decide), if_neg (by decide)]
    simp only
    obtain ⟨m, rfl⟩ : ∃ m, n = m + 1 := ⟨n - 1, by omega⟩
    rw [readFields_append (hs.line (d + 1)), readFields, eat_cons (by decide), if_pos rfl]
    simp only [readString_jsonChars]
    rw [eat_cons (by decide), if_pos rfl]
    simp only
    rw [readValue_append hs.colon, readValue_text hs x hx (d + 1) m _ (jsonFields_ends hs d xs rest) (by omega) (by omega)]
    simp only
    rw [readFieldsTail_text hs xs hxs d m rest (by omega)]
    rfl
theorem readItemsTail_text (hs : st.Blank) : ∀ (l : List (WJson α)), (∀ x ∈ numbersOfList l, NumReads showNum R x) →
    ∀ (d n : Nat) (rest : Text),
    2 * (jsonItems st showNum d l).length ≤ n → readItemsTail R n (jsonItems st showNum d l ++ rest) = some (l, rest)
  | [], _, d, 0, rest, hn => by simp [jsonItems] at hn
  | [], _, d, n + 1, rest, hn => by
    rw [jsonItems, List.append_assoc, readItemsTail, eat_append (hs.line d), eat_append (hs.line d)]
    rfl
  | x :: xs, h, d, n, rest, hn => by
    have hx : ∀ y ∈ numbers x, NumReads showNum R y := fun y hy => h y (by simp [numbersOfList, hy])
    have hxs : ∀ y ∈ numbersOfList xs, NumReads showNum R y := fun y hy => h y (by simp [numbersOfList, hy])
    have ho : Opens (jsonText st showNum (d + 1) x) := jsonText_opens (fun y hy => (hx y hy).first.opens) _
    have hlen : 0 < (jsonText st showNum (d + 1) x).length := by obtain ⟨c, w, e, -⟩ := ho; rw [e]; simp
    simp only [jsonItems, List.length_cons, List.length_append] at hn
    obtain ⟨m, rfl⟩ : ∃ m, n = m + 2 := ⟨n - 2, by omega⟩
    rw [jsonItems, List.cons_append, readItemsTail, eat_cons (by decide), if_pos rfl]
    simp only [List.append_assoc]
    rw [readItems_append (hs.next (d + 1)), readItems,
      readValue_text hs x hx (d + 1) m _ (jsonItems_ends hs d xs rest) (by omega) (by omega)]
    simp only
    rw [readItemsTail_text hs xs hxs d m rest (by omega)]
    rfl
theorem readFieldsTail_text (hs : st.Blank) : ∀ (l : List (Text × WJson α)), (∀ x ∈ numbersOfFields l, NumReads showNum R x) →
    ∀ (d n : Nat) (rest : Text),
    2 * (jsonFields st showNum d l).length ≤ n → readFieldsTail R n (jsonFields st showNum d l ++ rest) = some (l, rest)
  | [], _, d, 0, rest, hn => by simp [jsonFields] at hn
  | [], _, d, n + 1, rest, hn => by
    rw [jsonFields, List.append_assoc, readFieldsTail, eat_append (hs.line d), eat_append (hs.line d)]
    rfl
  | (k, x) :: xs, h, d, n, rest, hn => by
    have hx : ∀ y ∈ numbers x, NumReads showNum R y := fun y hy => h y (by simp [numbersOfFields, hy])
    have hxs : ∀ y ∈ numbersOfFields xs, NumReads showNum R y := fun y hy => h y (by simp [numbersOfFields, hy])
    have ho : Opens (jsonText st showNum (d + 1) x) := jsonText_opens (fun y hy => (hx y hy).first.opens) _
    have hlen : 0 < (jsonText st showNum (d + 1) x).length := by obtain ⟨c, w, e, -⟩ := ho; rw [e]; simp
    simp only [jsonFields, List.length_cons, List.length_append] at hn
    obtain ⟨m, rfl⟩ : ∃ m, n = m + 2 := ⟨n - 2, by omega⟩
    rw [jsonFields, List.cons_append, readFieldsTail, eat_cons (by decide), if_pos rfl]
    simp only [List.append_assoc, List.cons_append]
    rw [readFields_append (hs.next (d + 1)), readFields, eat_cons (by decide), if_pos rfl]
    simp only [readString_jsonChars]
    rw [eat_cons (by decide), if_pos rfl]
    simp only
    rw [readValue_append hs.colon, readValue_text hs x hx (d + 1) m _ (jsonFields_ends hs d xs rest) (by omega) (by omega)]
    simp only
    rw [readFieldsTail_text hs xs hxs d m rest (by omega)]
    rfl
end

theorem parseJson_text (hs : st.Blank) {v : WJson α} (h : ∀ x ∈ numbers v, NumReads showNum R x) {t : Text} (ht : AllSpace t) :
    parseJson R (jsonText st showNum 0 v ++ t) = some v := by
  have he : Ends t := by
    have := ends_append ht ends_nil
    rwa [List.append_nil] at this
  have := readValue_text hs v h 0 (2 * (jsonText st showNum 0 v ++ t).length + 2) t he (by simp; omega) (by omega)
  unfold parseJson
  rw [this]
  have hw := skipWs_append ht []
  rw [List.append_nil] at hw
  simp only [hw]
  rfl

mutual
theorem readValue_text_fails (hs : st.Blank) : ∀ (v : WJson α), (∀ x ∈ numbers v, NumReads showNum R x ∨ NumFails showNum R x) →
    (∃ x ∈ numbers v, NumFails showNum R x) → ∀ (d n : Nat) (rest : Text), Ends rest →
    2 * (jsonText st showNum d v).length ≤ n → 0 < n → readValue R n (jsonText st showNum d v ++ rest) = none
  | .null, _, h, _, _, _, _, _, _ => by simp [numbers] at h
  | .bool _, _, h, _, _, _, _, _, _ => by simp [numbers] at h
  | .str _, _, h, _, _, _, _, _, _ => by simp [numbers] at h
  | .num x, _, h, d, n + 1, rest, _, _, _ => by
    have := h.choose_spec
    simp only [numbers, List.mem_singleton] at this
    have hx := this.1 ▸ this.2
    rw [jsonText, hx.first.append, hx.scalar rest]
  | .arr [], _, h, _, _, _, _, _, _ => by simp [numbers, numbersOfList] at h
  | .arr (x :: xs), ha, h, d, n + 1, rest, hr, hn, _ => by
    have hx : ∀ y ∈ numbers x, NumReads showNum R y ∨ NumFails showNum R y := fun y hy => ha y (by simp [numbers, numbersOfList, hy])
    have hxs : ∀ y ∈ numbersOfList xs, NumReads showNum R y ∨ NumFails showNum R y :=
      fun y hy => ha y (by simp [numbers, numbersOfList, hy])
    have ho : Opens (jsonText st showNum (d + 1) x) :=
      jsonText_opens (fun y hy => (hx y hy).elim (·.first.opens) (·.first.opens)) _
    have hlen : 0 < (jsonText st showNum (d + 1) x).length := by obtain ⟨c, w, e, -⟩ := ho; rw [e]; simp
    simp only [jsonText, List.length_cons, List.length_append] at hn
    rw [jsonText, List.cons_append, readValue, skipWs_cons (by decide)]
    simp only [show ('[' : Char) ≠ '"' by decide, ↓reduceIte, List.append_assoc, eat_append (hs.line (d + 1)),
      (ho.append _).not_end.1]
    obtain ⟨m, rfl⟩ : ∃ m, n = m + 1 := ⟨n - 1, by omega⟩
    rw [readItems_append (hs.line (d + 1)), readItems]
    by_cases hb : ∃ y ∈ numbers x, NumFails showNum R y
    · rw [readValue_text_fails hs x hx hb (d + 1) m _ (jsonItems_ends hs d xs rest) (by omega) (by omega)]
      rfl
    · rw [readValue_text hs x (fun y hy => (hx y hy).resolve_right fun hf => hb ⟨y, hy, hf⟩) (d + 1) m _
        (jsonItems_ends hs d xs rest) (by omega) (by omega)]
      simp only
      rw [readItemsTail_text_fails hs xs hxs ?_ d m rest (by omega)]
      · rfl
      obtain ⟨y, hy, hf⟩ := h
      simp only [numbers, numbersOfList, List.mem_append] at hy
      exact ⟨y, hy.resolve_left fun hy => hb ⟨y, hy, hf⟩, hf⟩
  | .obj [], _, h, _, _, _, _, _, _ => by simp [numbers, numbersOfFields] at h
  | .obj ((k, x) :: xs), ha, h, d, n + 1, rest, hr, hn, _ => by
    have hx : ∀ y ∈ numbers x, NumReads showNum R y ∨ NumFails showNum R y := fun y hy => ha y (by simp [numbers, numbersOfFields, hy])
    have hxs : ∀ y ∈ numbersOfFields xs, NumReads showNum R y ∨ NumFails showNum R y :=
      fun y hy => ha y (by simp [numbers, numbersOfFields, hy])
    have ho : Opens (jsonText st showNum (d + 1) x) :=
      jsonText_opens (fun y hy => (hx y hy).elim (·.first.opens) (·.first.opens)) _
    have hlen : 0 < (jsonText st showNum (d + 1) x).length := by obtain ⟨c, w, e, -⟩ := ho; rw [e]; simp
    simp only [jsonText, List.length_cons, List.length_append] at hn
    rw [jsonText, List.cons_append, readValue, skipWs_cons (by decide)]
    simp only [show ('{' : Char) ≠ '"' by decide, show ('{' : Char) ≠ '[' by decide, ↓reduceIte, List.append_assoc,
      List.cons_append]
    rw [eat_append (hs.line (d + 1)), eat_cons (by decide), if_neg (by decide)]
    simp only
    obtain ⟨m, rfl⟩ : ∃ m, n = m + 1 := ⟨n - 1, by omega⟩
    rw [readFields_append (hs.line (d + 1)), readFields, eat_cons (by decide), if_pos rfl]
    simp only [readString_jsonChars]
    rw [eat_cons (by decide), if_pos rfl]
    simp only
    rw [readValue_append hs.colon]
    by_cases hb : ∃ y ∈ numbers x, NumFails showNum R y
    · rw [readValue_text_fails hs x hx hb (d + 1) m _ (jsonFields_ends hs d xs rest) (by omega) (by omega)]
      rfl
    · rw [readValue_text hs x (fun y hy => (hx y hy).resolve_right fun hf => hb ⟨y, hy, hf⟩) (d + 1) m _
        (jsonFields_ends hs d xs rest) (by omega) (by omega)]
      simp only
      rw [readFieldsTail_text_fails hs xs hxs ?_ d m rest (by omega)]
      · rfl
      obtain ⟨y, hy, hf⟩ := h
      simp only [numbers, numbersOfFields, List.mem_append] at hy
      exact ⟨y, hy.resolve_left fun hy => hb ⟨y, hy, hf⟩, hf⟩
theorem readItemsTail_text_fails (hs : st.Blank) : ∀ (l : List (WJson α)),
    (∀ x ∈ numbersOfList l, NumReads showNum R x ∨ NumFails showNum R x) →
    (∃ x ∈ numbersOfList l, NumFails showNum R x) → ∀ (d n : Nat) (rest : Text),
    2 * (jsonItems st showNum d l).length ≤ n → readItemsTail R n (jsonItems st showNum d l ++ rest) = none
  | [], _, h, _, _, _, _ => by simp [numbersOfList] at h
  | x :: xs, ha, h, d, n, rest, hn => by
    have hx : ∀ y ∈ numbers x, NumReads showNum R y ∨ NumFails showNum R y := fun y hy => ha y (by simp [numbersOfList, hy])
    have hxs : ∀ y ∈ numbersOfList xs, NumReads showNum R y ∨ NumFails showNum R y :=
      fun y hy => ha y (by simp [numbersOfList, hy])
    have ho : Opens (jsonText st showNum (d + 1) x) :=
      jsonText_opens (fun y hy => (hx y hy).elim (·.first.opens) (·.first.opens)) _
    have hlen : 0 < (jsonText st showNum (d + 1) x).length := by obtain ⟨c, w, e, -⟩ := ho; rw [e]; simp
    simp only [jsonItems, List.length_cons, List.length_append] at hn
    obtain ⟨m, rfl⟩ : ∃ m, n = m + 2 := ⟨n - 2, by omega⟩
    rw [jsonItems, List.cons_append, readItemsTail, eat_cons (by decide), if_pos rfl]
    simp only [List.append_assoc]
    rw [readItems_append (hs.next (d + 1)), readItems]
    by_cases hb : ∃ y ∈ numbers x, NumFails showNum R y
    · rw [readValue_text_fails hs x hx hb (d + 1) m _ (jsonItems_ends hs d xs rest) (by omega) (by omega)]
    · rw [readValue_text hs x (fun y hy => (hx y hy).resolve_right fun hf => hb ⟨y, hy, hf⟩) (d + 1) m _
        (jsonItems_ends hs d xs rest) (by omega) (by omega)]
      simp only
      rw [readItemsTail_text_fails hs xs hxs ?_ d m rest (by omega)]
      · rfl
      obtain ⟨y, hy, hf⟩ := h
      simp only [numbersOfList, List.mem_append] at hy
      exact ⟨y, hy.resolve_left fun hy => hb ⟨y, hy, hf⟩, hf⟩
theorem readFieldsTail_text_fails (hs : st.Blank) : ∀ (l : List (Text × WJson α)),
    (∀ x ∈ numbersOfFields l, NumReads showNum R x ∨ NumFails showNum R x) →
    (∃ x ∈ numbersOfFields l, NumFails showNum R x) → ∀ (d n : Nat) (rest : Text),
    2 * (jsonFields st showNum d l).length ≤ n → readFieldsTail R n (jsonFields st showNum d l ++ rest) = none
  | [], _, h, _, _, _, _ => by simp [numbersOfFields] at h
  | (k, x) :: xs, ha, h, d, n, rest, hn => by
    have hx : ∀ y ∈ numbers x, NumReads showNum R y ∨ NumFails showNum R y := fun y hy => ha y (by simp [numbersOfFields, hy])
    have hxs : ∀ y ∈ numbersOfFields xs, NumReads showNum R y ∨ NumFails showNum R y :=
      fun y hy => ha y (by simp [numbersOfFields, hy])
    have ho : Opens (jsonText st showNum (d + 1) x) :=
      jsonText_opens (fun y hy => (hx y hy).elim (·.first.opens) (·.first.opens)) _
    have hlen : 0 < (jsonText st showNum (d + 1) x).length := by obtain ⟨c, w, e, -⟩ := ho; rw [e]; simp
    simp only [jsonFields, List.length_cons, List.length_append] at hn
    obtain ⟨m, rfl⟩ : ∃ m, n = m + 2 := ⟨n - 2, by omega⟩
    rw [jsonFields, List.cons_append, readFieldsTail, eat_cons (by decide), if_pos rfl]
    simp only [List.append_assoc, List.cons_append]
    rw [readFields_append (hs.next (d + 1)), readFields, eat_cons (by decide), if_pos rfl]
    simp only [readString_jsonChars]
    rw [eat_cons (by decide), if_pos rfl]
    simp only
    rw [readValue_append hs.colon]
    by_cases hb : ∃ y ∈ numbers x, NumFails showNum R y
    · rw [readValue_text_fails hs x hx hb (d + 1) m _ (jsonFields_ends hs d xs rest) (by omega) (by omega)]
    · rw [readValue_text hs x (fun y hy => (hx y hy).resolve_right fun hf => hb ⟨y, hy, hf⟩) (d + 1) m _
        (jsonFields_ends hs d xs rest) (by omega) (by omega)]
      simp only
      rw [readFieldsTail_text_fails hs xs hxs ?_ d m rest (by omega)]
      · rfl
      obtain ⟨y, hy, hf⟩ := h
      simp only [numbersOfFields, List.mem_append] at hy
      exact ⟨y, hy.resolve_left fun hy => hb ⟨y, hy, hf⟩, hf⟩
end

theorem parseJson_text_fails (hs : st.Blank) {v : WJson α} (h : ∀ x ∈ numbers v, NumReads showNum R x ∨ NumFails showNum R x)
    (hb : ∃ x ∈ numbers v, NumFails showNum R x) {t : Text} (ht : AllSpace t) :
    parseJson R (jsonText st showNum 0 v ++ t) = none := by
  have he : Ends t := by
    have := ends_append ht ends_nil
    rwa [List.append_nil] at this
  have := readValue_text_fails hs v h hb 0 (2 * (jsonText st showNum 0 v ++ t).length + 2) t he (by simp; omega) (by omega)
  unfold parseJson
  rw [this]

theorem blank_plain : JsonStyle.plain.Blank := ⟨nofun, by simp [AllSpace, JsonStyle.plain, isJsonSpace], by simp [AllSpace, JsonStyle.plain, isJsonSpace]⟩
theorem blank_compact : JsonStyle.compact.Blank := ⟨nofun, nofun, nofun⟩
theorem newlineIndent_space (n : Nat) : AllSpace (newlineIndent n) := by
  intro c hc
  rcases List.mem_cons.1 hc with rfl | hc
  · decide
  · rw [List.eq_of_mem_replicate hc]; decide
theorem blank_indented : JsonStyle.indented.Blank :=
  ⟨newlineIndent_space, newlineIndent_space, by simp [AllSpace, JsonStyle.indented, isJsonSpace]⟩

end TD
