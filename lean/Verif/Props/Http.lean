import Verif.Lemmas.Http
import Verif.Lemmas.JsonGrammar
import Verif.Model.AnswerText
/-!
# C107: what is entered in the form reaches the server unchanged

Property (see properties.jsonl): `C107_page` (the request of the page is answered for exactly the data of the form),
`C107_any_client` (every other way to write the parameters is understood in the same way; of repeated parameters the first counts,
but all algorithms), `C107_percent` (a percent sign not followed by two hexadecimal digits stands for itself), `C107_safe` (the request consists of printable ASCII characters, whatever was entered), `C107_handlers` (which
requests are answered by which method).
-/

namespace TD
open Spec

variable {X : Type} [DecidableEq X] {R : Rounding} {env : Env X R} {showNum : FP R → Text}

theorem filter_values (name : String) (ps : List (Text × Text)) :
    (ps.filter fun p => decide (p.1 = name.toList)).map (·.2) = valuesOf name ps := by
  unfold valuesOf
  induction ps with
  | nil => rfl
  | cons p ps ih =>
    by_cases h : p.1 = name.toList
    · rw [List.filter_cons_of_pos (by simpa using h), List.map_cons, ih, List.filterMap_cons, if_pos h]
    · rw [List.filter_cons_of_neg (by simpa using h), ih, List.filterMap_cons, if_neg h]

theorem lookup_values (name : String) (ps : List (Text × Text)) : ps.lookup name.toList = (valuesOf name ps).head? := by
  unfold valuesOf
  induction ps with
  | nil => rfl
  | cons p ps ih =>
    obtain ⟨k, v⟩ := p
    by_cases h : k = name.toList
    · subst h
      simp [List.lookup_cons]
    · have : (name.toList == k) = false := by simpa using Ne.symm h
      rw [List.lookup_cons, this, ih, List.filterMap_cons, if_neg h]

theorem readRequest_says {ps : List (Text × Text)} {req : Request} (h : Says ps req) : readRequest ps = req := by
  obtain ⟨h1, h2, h3, h4⟩ := h
  cases req
  simp only at h1 h2 h3 h4
  subst h1 h2 h3 h4
  unfold readRequest
  simp only [filter_values "algorithm", lookup_values "matrix", lookup_values "parameters", lookup_values "previous_results"]

theorem handlerOf_run {r : HttpRequest} (h : Gets r) : handlerOf r.method "/run/".toList = some .run := by
  rcases h with h | h <;> rw [h] <;> decide +kernel

theorem C107_any_client (after : Text) {ps : List (Text × Text)} {q : Text} (h : WritesQuery ps q) {r : HttpRequest} (hg : Gets r)
    (ht : r.target = "/run/?".toList ++ q) {req : Request} (hr : Says ps req) :
    serve env showNum after r = .answer (webRun env req) := by
  have e : splitTarget r.target = ("/run/".toList, q) := by
    rw [ht]
    unfold splitTarget
    rw [show "/run/?".toList ++ q = "/run/".toList ++ '?' :: q from rfl, splitOnce_append (by decide)]
  unfold serve
  simp only [e, handlerOf_run hg, requestArgs_writes h, readRequest_says hr]

theorem values_map (name : String) (other : String) (l : List Text) :
    valuesOf name (l.map fun t => (other.toList, t)) = if other.toList = name.toList then l else [] := by
  unfold valuesOf
  split_ifs with h
  · simp [h, List.filterMap_map, Function.comp_def]
  · simp [h]

theorem values_param (name other : String) (v : Option Text) :
    valuesOf name (param? other v) = if other.toList = name.toList then v.toList else [] := by
  unfold valuesOf param?
  cases v with
  | none => simp
  | some v => split_ifs with h <;> simp [h]

theorem values_append (name : String) (a b : List (Text × Text)) : valuesOf name (a ++ b) = valuesOf name a ++ valuesOf name b :=
  List.filterMap_append

theorem requestParams_says (req : Request) : Says (requestParams req) req := by
  unfold Says requestParams
  simp only [values_append, values_map, values_param]
  simp

theorem serialize_nil {ps : List (Text × Text)} (h : serializeParams ps = []) : ps = [] := by
  have := requestArgs_writes (serializeParams_writes ps)
  rw [h] at this
  exact this.symm

theorem target_eq (req : Request) : (pageRequest req).target =
    if requestParams req = [] then "/run/".toList
    else "/run/?".toList ++ (serializeParams (requestParams req)).flatMap quoteEscape := by
  have hw := serializeParams_writes (requestParams req)
  unfold pageRequest buildUrl
  simp only
  rw [if_neg (show '?' ∉ "/run/".toList by decide)]
  split_ifs with h1 h3 h3
  · rw [h3] at h1
    exact absurd h1 (by decide)
  · have e1 : (("/run/".toList ++ '?' :: serializeParams (requestParams req)).takeWhile (· ≠ '#')) =
        "/run/".toList ++ '?' :: serializeParams (requestParams req) := by
      rw [List.takeWhile_eq_self_iff]
      intro c hc
      simp only [List.mem_append, List.mem_cons] at hc
      have : c ≠ '#' := by
        rintro rfl
        rcases hc with hc | hc | hc
        · exact absurd hc (by decide)
        · exact absurd hc (by decide)
        · exact query_no_hash hw hc
      simpa using this
    unfold requestTarget
    simp only [e1]
    rw [splitOnce_append (by decide)]
    rfl
  · rfl
  · exact absurd (serialize_nil (List.length_eq_zero_iff.1 (Nat.eq_zero_of_not_pos h1))) h3

theorem C107_page (after : Text) (req : Request) : serve env showNum after (pageRequest req) = .answer (webRun env req) := by
  by_cases h : requestParams req = []
  · have e := target_eq req
    rw [if_pos h] at e
    have hs := requestParams_says req
    rw [h] at hs
    unfold serve
    have e' : splitTarget (pageRequest req).target = ("/run/".toList, []) := by rw [e]; decide +kernel
    simp only [e', handlerOf_run (r := pageRequest req) (.inl rfl), requestArgs_writes .nil, readRequest_says hs]
  · have e := target_eq req
    rw [if_neg h] at e
    exact C107_any_client after (quote_query (serializeParams_writes _)) (.inl rfl) e (requestParams_says req)

/-! ### Safe requests -/

theorem digit_print {c : Char} {n : Nat} (h : HexDigit c n) : 0x21 ≤ c.toNat ∧ c.toNat ≤ 0x7e := by
  have hn : n < 16 := by
    rcases h with h | h <;> · have := (List.getElem?_eq_some_iff.1 h).1; simpa using this
  have key : ∀ n : Fin 16, (∀ c ∈ "0123456789abcdef".toList[n.1]?, 0x21 ≤ c.toNat ∧ c.toNat ≤ 0x7e) ∧
      ∀ c ∈ "0123456789ABCDEF".toList[n.1]?, 0x21 ≤ c.toNat ∧ c.toNat ≤ 0x7e := by decide +kernel
  rcases h with h | h
  · exact (key ⟨n, hn⟩).1 c h
  · exact (key ⟨n, hn⟩).2 c h

theorem writes_print {t q : Text} (h : Writes t q) {d : Char} (hd : d ∈ q) : 0x21 ≤ d.toNat ∧ d.toNat ≤ 0x7e := by
  obtain ⟨parts, h, rfl⟩ := h
  obtain ⟨p, hp, hd⟩ := List.mem_flatten.1 hd
  obtain ⟨c, hc⟩ := forall₂_right h hp
  cases hc with
  | plain _ h1 h2 _ =>
    simp only [List.mem_cons, List.not_mem_nil, or_false] at hd
    subst hd
    exact ⟨h1, h2⟩
  | plus => simp only [List.mem_cons, List.not_mem_nil, or_false] at hd; subst hd; decide
  | escaped _ es h =>
    obtain ⟨e, he, hd⟩ := List.mem_flatten.1 hd
    obtain ⟨b, x, y, m, n, hx, hy, -, rfl⟩ := forall₂_right h he
    simp only [List.mem_cons, List.not_mem_nil, or_false] at hd
    rcases hd with rfl | rfl | rfl
    · decide
    · exact digit_print hx
    · exact digit_print hy

theorem query_print {ps : List (Text × Text)} {q : Text} (h : WritesQuery ps q) : ∀ d ∈ q, 0x21 ≤ d.toNat ∧ d.toNat ≤ 0x7e := by
  have hp : ∀ {p q}, WritesPair p q → ∀ d ∈ q, 0x21 ≤ d.toNat ∧ d.toNat ≤ 0x7e := by
    rintro p q ⟨k, v, hk, hv, rfl⟩ d hm
    simp only [List.mem_append, List.mem_cons, List.not_mem_nil, or_false] at hm
    rcases hm with (hm | rfl) | hm
    · exact writes_print hk hm
    · decide
    · exact writes_print hv hm
  induction h with
  | nil => intro d hd; cases hd
  | one h => exact hp h
  | cons h _ ih =>
    intro d hm
    simp only [List.mem_append, List.mem_cons, List.not_mem_nil, or_false] at hm
    rcases hm with (hm | rfl) | hm
    · exact hp h d hm
    · decide
    · exact ih d hm

theorem C107_safe (req : Request) : ∀ c ∈ (pageRequest req).target, 0x21 ≤ c.toNat ∧ c.toNat ≤ 0x7e := by
  intro c hc
  rw [target_eq] at hc
  split_ifs at hc
  · have : ∀ c ∈ "/run/".toList, 0x21 ≤ c.toNat ∧ c.toNat ≤ 0x7e := by decide
    exact this c hc
  · rcases List.mem_append.1 hc with hc | hc
    · have : ∀ c ∈ "/run/?".toList, 0x21 ≤ c.toNat ∧ c.toNat ≤ 0x7e := by decide
      exact this c hc
    · exact query_print (quote_query (serializeParams_writes _)) c hc

/-! ### Handlers -/

theorem splitTarget_path (r : HttpRequest) : (splitTarget r.target).1 = pathOf r := by
  unfold splitTarget pathOf
  generalize r.target = t
  induction t with
  | nil => rfl
  | cons c t ih =>
    rw [splitOnce]
    by_cases h : c = '?'
    · subst h
      simp
    · rw [if_neg h, List.takeWhile_cons_of_pos (by simpa using h), ← ih]
      cases splitOnce '?' t with
      | none => rfl
      | some p => rfl

theorem handlerOf_iff (method path : Text) (h : Handler) : handlerOf method path = some h ↔
    (method = "GET".toList ∨ method = "HEAD".toList) ∧ ((h = .homePage ∧ path = "/".toList) ∨ (h = .run ∧ path = "/run/".toList)) := by
  have hm : ∀ m : Text, (decide (m ∈ ["GET".toList]) || (decide (m = "HEAD".toList) && decide ("GET".toList ∈ ["GET".toList]))) =
      decide (m = "GET".toList ∨ m = "HEAD".toList) := by
    intro m
    simp
  unfold handlerOf routes
  simp only [List.find?_cons, List.find?_nil, hm]
  have ne : ¬("/".toList : Text) = "/run/".toList := by decide
  clear hm
  generalize ("/run/".toList : Text) = b at *
  generalize ("/".toList : Text) = a at *
  generalize ("GET".toList : Text) = x at *
  generalize ("HEAD".toList : Text) = y at *
  by_cases g : method = x ∨ method = y
  · rw [decide_eq_true g]
    by_cases p1 : path = a
    · subst p1
      cases h <;> simp [g, ne]
    · by_cases p2 : path = b
      · subst p2
        cases h <;> simp [g, ne, p1]
      · rw [decide_eq_false fun e => p1 e.symm, decide_eq_false fun e => p2 e.symm]
        simp [p1, p2]
  · rw [decide_eq_false g]
    simp [g]

theorem C107_handlers (after : Text) (r : HttpRequest) :
    ((∃ res, serve env showNum after r = .answer res) ↔ Gets r ∧ pathOf r = "/run/".toList) ∧
    ((∃ t, serve env showNum after r = .page t) ↔ Gets r ∧ pathOf r = "/".toList) ∧
    (Gets r → pathOf r = "/".toList → serve env showNum after r = .page (homePage showNum after)) := by
  unfold Gets serve
  simp only [splitTarget_path]
  cases hh : handlerOf r.method (pathOf r) with
  | none =>
    have h1 := mt (handlerOf_iff r.method (pathOf r) .run).2 (by rw [hh]; simp)
    have h2 := mt (handlerOf_iff r.method (pathOf r) .homePage).2 (by rw [hh]; simp)
    simp only [true_and, reduceCtorEq, false_and, or_false, false_or] at h1 h2
    simp only [reduceCtorEq, exists_false, false_iff]
    exact ⟨h1, h2, fun a b => h2 ⟨a, b⟩⟩
  | some h =>
    have := (handlerOf_iff r.method (pathOf r) h).1 hh
    cases h with
    | homePage =>
      simp only [true_and, reduceCtorEq, false_and, or_false] at this
      simp only [reduceCtorEq, exists_false, false_iff, Served.page.injEq, exists_eq', true_iff]
      exact ⟨fun c => absurd (this.2.symm.trans c.2) (by decide), this, fun _ _ => trivial⟩
    | run =>
      simp only [true_and, reduceCtorEq, false_and, false_or] at this
      simp only [reduceCtorEq, exists_false, false_iff, Served.answer.injEq, exists_eq', true_iff]
      exact ⟨this, fun c => absurd (this.2.symm.trans c.2) (by decide), fun _ c => absurd (this.2.symm.trans c) (by decide)⟩

/-! ### Concrete cases -/

/-- **C107.** A percent sign that is not followed by two hexadecimal digits stands for itself. -/
theorem C107_percent (t : Text) (h : ¬ ∃ x y m n r, t = x :: y :: r ∧ HexDigit x m ∧ HexDigit y n) :
    unquotePlus ('%' :: t) = '%' :: unquotePlus t := by
  have key : unquoteBytes (('%' :: t).map plusSpace) = 37 :: unquoteBytes (t.map plusSpace) := by
    rw [List.map_cons, show plusSpace '%' = '%' by decide]
    rcases t with _ | ⟨a, _ | ⟨b, r⟩⟩
    · rfl
    · rfl
    · simp only [List.map_cons]
      rw [unquoteBytes.eq_1]
      have back : ∀ c n, hexVal (plusSpace c) = some n → HexDigit c n := by
        intro c n hc
        by_cases e : c = '+'
        · subst e; exact absurd hc (by rw [show hexVal (plusSpace '+') = none by decide]; nofun)
        · rw [plusSpace, if_neg e] at hc; exact (hexVal_iff _ _).1 hc
      split
      · rename_i x y hx hy
        exact absurd ⟨a, b, x, y, r, rfl, back _ _ hx, back _ _ hy⟩ h
      · rfl
  show decodeUtf8 (unquoteBytes (('%' :: t).map plusSpace)) = '%' :: decodeUtf8 (unquoteBytes (t.map plusSpace))
  rw [key, decodeUtf8.eq_def]
  rfl

/-- As in the query `matrix=50%25,100%`. -/
example : unquotePlus "50%25,100%".toList = "50%,100%".toList ∧
    ¬ ∃ x y m n r, ([] : Text) = x :: y :: r ∧ HexDigit x m ∧ HexDigit y n := ⟨by decide +kernel, by simp⟩

/-- A request whose texts have characters of every kind. -/
def demoSent : Request where
  algorithm := ["sums".toList, "crh".toList]
  csv := some "1,2\n-3.5,'é'".toList
  parameters := some "priors=fixed&x".toList

example : (pageRequest demoSent).target =
    "/run/?algorithm=sums&algorithm=crh&matrix=1,2%0A-3.5,%27%C3%A9%27&parameters=priors%3Dfixed%26x".toList := by
  decide +kernel

example : readRequest (requestArgs "matrix=1%2c2%0d%0a+3&x=4&matrix=7&algorithm=sums&&algorithm".toList) =
    { algorithm := ["sums".toList, []], csv := some "1,2\r\n 3".toList } := by
  have h1 : requestArgs "matrix=1%2c2%0d%0a+3&x=4&matrix=7&algorithm=sums&&algorithm".toList =
      [("matrix".toList, "1,2\r\n 3".toList), ("x".toList, "4".toList), ("matrix".toList, "7".toList),
        ("algorithm".toList, "sums".toList), ("algorithm".toList, [])] := by decide +kernel
  rw [h1]
  rfl

/-- Another way to write a parameter. -/
example : WritesQuery [("x".toList, "é ".toList)] "%78=%c3%A9+".toList :=
  .one ⟨"%78".toList, "%c3%A9+".toList,
    ⟨[_], .cons (.escaped 'x' [_] (.cons ⟨'7', '8', 7, 8, .inl rfl, .inl rfl, rfl, rfl⟩ .nil)) .nil, rfl⟩,
    ⟨[_, _], .cons (.escaped 'é' [_, _] (.cons ⟨'c', '3', 12, 3, .inl rfl, .inl rfl, by decide, rfl⟩
      (.cons ⟨'A', '9', 10, 9, .inr rfl, .inl rfl, by decide, rfl⟩ .nil))) (.cons .plus .nil), rfl⟩, rfl⟩

end TD
