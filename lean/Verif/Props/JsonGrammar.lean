import Verif.Lemmas.JsonGrammar
import Verif.Props.JsonText
/-!
# The reader of JSON texts accepts exactly the JSON texts (C110)
-/

namespace TD
open Spec
variable {α : Type} {R : JsonReader α}

/-! ### What is read is in the grammar -/

theorem eatWord_iff : ∀ w t r : Text, eatWord w t = some r ↔ t = w ++ r
  | [], t, r => by simp [eatWord]
  | c :: w, [], r => by simp [eatWord]
  | c :: w, d :: t, r => by
    simp only [eatWord]
    split_ifs with h
    · subst h
      rw [eatWord_iff w t r]
      simp
    · simp only [List.cons_append, List.cons.injEq, reduceCtorEq, false_iff, not_and]
      intro e
      exact absurd e.symm h

theorem readWord_sound : ∀ (ws : List (Text × WJson α)) (t r : Text) (v : WJson α), readWord ws t = some (v, r) →
    ∃ w, (w, v) ∈ ws ∧ t = w ++ r
  | [], t, r, v, h => by simp [readWord] at h
  | (w, u) :: ws, t, r, v, h => by
    simp only [readWord] at h
    cases e : eatWord w t with
    | some r' =>
      rw [e] at h
      cases h
      exact ⟨w, by simp, (eatWord_iff _ _ _).1 e⟩
    | none =>
      rw [e] at h
      obtain ⟨w', h1, h2⟩ := readWord_sound ws t r v h
      exact ⟨w', by simp [h1], h2⟩

theorem isNumChar_iff (c : Char) : isNumChar c = true ↔ c ∈ "0123456789+-.eE".toList := by
  constructor
  · intro h
    simp only [isNumChar, Bool.or_eq_true, decide_eq_true_eq] at h
    rcases h with ((((h | rfl) | rfl) | rfl) | rfl) | rfl
    · have h' : 48 ≤ c.toNat ∧ c.toNat ≤ 57 := by
        simp only [Char.isDigit, Bool.and_eq_true, decide_eq_true_eq] at h
        exact ⟨h.1, h.2⟩
      obtain ⟨a, b⟩ := h'
      generalize hm : c.toNat = m at *
      rw [char_of_toNat hm]
      interval_cases m <;> decide
    all_goals decide
  · intro h
    have : ∀ c ∈ "0123456789+-.eE".toList, isNumChar c = true := by decide
    exact this c h

theorem readScalar_sound {t r : Text} {v : WJson α} (h : readScalar R t = some (v, r)) : ∃ w, t = w ++ r ∧ ValueText R w v := by
  unfold readScalar at h
  cases h1 : readWord (α := α) [("null".toList, .null), ("true".toList, .bool true), ("false".toList, .bool false)] t with
  | some p =>
    rw [h1] at h
    cases h
    obtain ⟨w, hw, e⟩ := readWord_sound _ _ _ _ h1
    simp only [List.mem_cons, Prod.mk.injEq, List.not_mem_nil, or_false] at hw
    rcases hw with ⟨rfl, rfl⟩ | ⟨rfl, rfl⟩ | ⟨rfl, rfl⟩
    · exact ⟨_, e, .null⟩
    · exact ⟨_, e, .true⟩
    · exact ⟨_, e, .false⟩
  | none =>
    rw [h1] at h
    simp only at h
    cases h2 : R.number (t.takeWhile isNumChar) with
    | some x =>
      rw [h2] at h
      cases h
      refine ⟨_, (List.takeWhile_append_dropWhile).symm, .number _ x (fun c hc => ?_) h2⟩
      have := List.all_takeWhile (l := t) (p := isNumChar)
      rw [List.all_eq_true] at this
      exact (isNumChar_iff c).1 (this c hc)
    | none =>
      rw [h2] at h
      obtain ⟨w, hw, e⟩ := readWord_sound _ _ _ _ h
      obtain ⟨⟨w', x⟩, hx, e'⟩ := List.mem_map.1 hw
      cases e'
      exact ⟨_, e, .word _ x hx⟩

/-- Everything that the reader accepts. -/
theorem read_sound (n : Nat) :
    (∀ t v r, readValue R n t = some (v, r) → ∃ a w, t = a ++ w ++ r ∧ Blank a ∧ ValueText R w v) ∧
    (∀ t vs r, readItems R n t = some (vs, r) → ∃ w, t = w ++ ']' :: r ∧ ItemsText R w vs) ∧
    (∀ t vs r, readItemsTail R n t = some (vs, r) → ∃ b, Blank b ∧ ((vs = [] ∧ t = b ++ ']' :: r) ∨
      ∃ w, t = b ++ ',' :: (w ++ ']' :: r) ∧ ItemsText R w vs)) ∧
    (∀ t ms r, readFields R n t = some (ms, r) → ∃ w, t = w ++ '}' :: r ∧ MembersText R w ms) ∧
    (∀ t ms r, readFieldsTail R n t = some (ms, r) → ∃ b, Blank b ∧ ((ms = [] ∧ t = b ++ '}' :: r) ∨
      ∃ w, t = b ++ ',' :: (w ++ '}' :: r) ∧ MembersText R w ms)) := by
  induction n with
  | zero =>
    refine ⟨?_, ?_, ?_, ?_, ?_⟩ <;> intro t v r h
    · rw [readValue] at h; cases h
    · rw [readItems] at h; cases h
    · rw [readItemsTail] at h; cases h
    · rw [readFields] at h; cases h
    · rw [readFieldsTail] at h; cases h
  | succ n ih =>
    obtain ⟨ih1, ih2, ih3, ih4, ih5⟩ := ih
    refine ⟨?_, ?_, ?_, ?_, ?_⟩
    · intro t v r h
      rw [readValue] at h
      obtain ⟨a, ha, e⟩ := skipWs_split t
      cases hs : skipWs t with
      | nil => rw [hs] at h; cases h
      | cons c t' =>
        rw [hs] at h e
        simp only at h
        split_ifs at h with h1 h2 h3
        · simp only [Option.map_eq_some_iff] at h
          obtain ⟨⟨s, r'⟩, h4, h5⟩ := h
          cases h5
          obtain ⟨w, rfl, hw⟩ := (readString_iff _ _ _).1 h4
          subst h1
          exact ⟨a, _, by rw [e]; simp, ha, .string w s hw⟩
        · cases he : eat ']' t' with
          | some r' =>
            rw [he] at h
            cases h
            obtain ⟨b, hb, rfl⟩ := (eat_iff (by decide) _ _).1 he
            subst h2
            exact ⟨a, _, by rw [e]; simp, ha, .noItems b hb⟩
          | none =>
            rw [he] at h
            simp only [Option.map_eq_some_iff] at h
            obtain ⟨⟨vs, r'⟩, h4, h5⟩ := h
            cases h5
            obtain ⟨w, rfl, hw⟩ := ih2 _ _ _ h4
            subst h2
            exact ⟨a, _, by rw [e]; simp, ha, .array w vs hw⟩
        · cases he : eat '}' t' with
          | some r' =>
            rw [he] at h
            cases h
            obtain ⟨b, hb, rfl⟩ := (eat_iff (by decide) _ _).1 he
            subst h3
            exact ⟨a, _, by rw [e]; simp, ha, .noMembers b hb⟩
          | none =>
            rw [he] at h
            simp only [Option.map_eq_some_iff] at h
            obtain ⟨⟨vs, r'⟩, h4, h5⟩ := h
            cases h5
            obtain ⟨w, rfl, hw⟩ := ih4 _ _ _ h4
            subst h3
            exact ⟨a, _, by rw [e]; simp, ha, .object w vs hw⟩
        · obtain ⟨w, hw, hv⟩ := readScalar_sound h
          exact ⟨a, w, by rw [e, hw]; simp, ha, hv⟩
    · intro t vs r h
      rw [readItems] at h
      cases h1 : readValue R n t with
      | none => rw [h1] at h; cases h
      | some p =>
        obtain ⟨v, r1⟩ := p
        rw [h1] at h
        simp only [Option.map_eq_some_iff] at h
        obtain ⟨⟨us, r2⟩, h2, h3⟩ := h
        cases h3
        obtain ⟨a, w, rfl, ha, hv⟩ := ih1 _ _ _ h1
        obtain ⟨b, hb, ⟨rfl, rfl⟩ | ⟨w', rfl, hw'⟩⟩ := ih3 _ _ _ h2
        · exact ⟨_, by simp, .last a w b v ha hv hb⟩
        · exact ⟨_, by simp, .more a w b v ha hv hb w' _ hw'⟩
    · intro t vs r h
      rw [readItemsTail] at h
      cases h1 : eat ',' t with
      | some r1 =>
        rw [h1] at h
        obtain ⟨b, hb, rfl⟩ := (eat_iff (by decide) _ _).1 h1
        obtain ⟨w, rfl, hw⟩ := ih2 _ _ _ h
        exact ⟨b, hb, .inr ⟨w, rfl, hw⟩⟩
      | none =>
        rw [h1] at h
        simp only [Option.map_eq_some_iff] at h
        obtain ⟨r2, h2, h3⟩ := h
        cases h3
        obtain ⟨b, hb, rfl⟩ := (eat_iff (by decide) _ _).1 h2
        exact ⟨b, hb, .inl ⟨rfl, rfl⟩⟩
    · intro t ms r h
      rw [readFields] at h
      cases h1 : eat '"' t with
      | none => rw [h1] at h; cases h
      | some r1 =>
        rw [h1] at h
        simp only at h
        cases h2 : readString r1 with
        | none => rw [h2] at h; cases h
        | some p2 =>
          obtain ⟨k, r2⟩ := p2
          rw [h2] at h
          simp only at h
          cases h3 : eat ':' r2 with
          | none => rw [h3] at h; cases h
          | some r3 =>
            rw [h3] at h
            simp only at h
            cases h4 : readValue R n r3 with
            | none => rw [h4] at h; cases h
            | some p4 =>
              obtain ⟨v, r4⟩ := p4
              rw [h4] at h
              simp only [Option.map_eq_some_iff] at h
              obtain ⟨⟨us, r5⟩, h5, h6⟩ := h
              cases h6
              obtain ⟨a, ha, rfl⟩ := (eat_iff (by decide) _ _).1 h1
              obtain ⟨w, rfl, hw⟩ := (readString_iff _ _ _).1 h2
              obtain ⟨b, hb, rfl⟩ := (eat_iff (by decide) _ _).1 h3
              obtain ⟨c, x, rfl, hc, hv⟩ := ih1 _ _ _ h4
              obtain ⟨d, hd, ⟨rfl, rfl⟩ | ⟨w', rfl, hw'⟩⟩ := ih5 _ _ _ h5
              · exact ⟨_, by simp, .last a w b c x d k v ha hw hb hc hv hd⟩
              · exact ⟨_, by simp, .more a w b c x d k v ha hw hb hc hv hd w' _ hw'⟩
    · intro t vs r h
      rw [readFieldsTail] at h
      cases h1 : eat ',' t with
      | some r1 =>
        rw [h1] at h
        obtain ⟨b, hb, rfl⟩ := (eat_iff (by decide) _ _).1 h1
        obtain ⟨w, rfl, hw⟩ := ih4 _ _ _ h
        exact ⟨b, hb, .inr ⟨w, rfl, hw⟩⟩
      | none =>
        rw [h1] at h
        simp only [Option.map_eq_some_iff] at h
        obtain ⟨r2, h2, h3⟩ := h
        cases h3
        obtain ⟨b, hb, rfl⟩ := (eat_iff (by decide) _ _).1 h2
        exact ⟨b, hb, .inl ⟨rfl, rfl⟩⟩

/-! ### What is in the grammar is read -/

theorem number_first (hR : Standard R) {t : Text} {x : α} (h : ∀ c ∈ t, c ∈ "0123456789+-.eE".toList) (hx : R.number t = some x) :
    Literal (fun _ : α => t) R x := by
  refine ⟨?_, fun c hc => (isNumChar_iff c).2 (h c hc), hx⟩
  intro e
  rw [e, hR.empty] at hx
  cases hx

theorem word_mem (hR : Standard R) {t : Text} {x : α} (h : (t, x) ∈ R.words) : NotANumber (fun _ : α => t) R x := by
  refine ⟨?_, hR.empty, hR.sign⟩
  rcases hR.words with e | ⟨a, b, c, e⟩ <;> rw [e] at h
  · cases h
  · simp only [List.mem_cons, Prod.mk.injEq, List.not_mem_nil, or_false] at h
    rcases h with ⟨rfl, -⟩ | ⟨rfl, -⟩ | ⟨rfl, -⟩ <;> simp

theorem readScalar_words (hR : Standard R) {t : Text} {x : α} (h : (t, x) ∈ R.words) (rest : Text) :
    readScalar R (t ++ rest) = some (.num x, rest) := by
  rw [readScalar_word (showNum := fun _ => t) (word_mem hR h)]
  rcases hR.words with e | ⟨a, b, c, e⟩ <;> rw [e] at h ⊢
  · cases h
  · simp only [List.mem_cons, Prod.mk.injEq, List.not_mem_nil, or_false] at h
    rcases h with ⟨rfl, rfl⟩ | ⟨rfl, rfl⟩ | ⟨rfl, rfl⟩ <;> rfl

theorem value_opens (hR : Standard R) {w : Text} {v : WJson α} (h : ValueText R w v) : Opens w := by
  cases h with
  | null => exact ⟨_, _, rfl, by decide⟩
  | true => exact ⟨_, _, rfl, by decide⟩
  | false => exact ⟨_, _, rfl, by decide⟩
  | number t x h hx => exact (number_first hR h hx).first.opens
  | word t x h => exact (word_first (word_mem hR h).word).opens
  | string t s h => exact ⟨_, _, rfl, by decide⟩
  | noItems w h => exact ⟨_, _, rfl, by decide⟩
  | array t vs h => exact ⟨_, _, rfl, by decide⟩
  | noMembers w h => exact ⟨_, _, rfl, by decide⟩
  | object t ms h => exact ⟨_, _, rfl, by decide⟩

theorem readValue_blank {a : Text} (h : Blank a) (n : Nat) (t : Text) : readValue R n (a ++ t) = readValue R n t := by
  cases n with
  | zero => rw [readValue, readValue]
  | succ n => rw [readValue, readValue, skipWs_blank h]

theorem ends_blank {b : Text} (h : Blank b) {c : Char} (hc : isNumChar c = false) (r : Text) : Ends (b ++ c :: r) := by
  cases b with
  | nil => exact ends_cons hc r
  | cons d b =>
    refine ends_cons ?_ _
    have := h d (by simp)
    have key : ∀ d ∈ [' ', '\t', '\n', '\r'], isNumChar d = false := by decide
    exact key d this

theorem items_not_end (hR : Standard R) {w : Text} {vs : List (WJson α)} (h : ItemsText R w vs) (r : Text) : eat ']' (w ++ r) = none := by
  cases h with
  | last a t b v ha h hb =>
    rw [List.append_assoc, List.append_assoc, eat_blank ha]
    exact ((value_opens hR h).append _).not_end.1
  | more a t b v ha h hb t' vs h' =>
    simp only [List.append_assoc]
    rw [eat_blank ha]
    exact ((value_opens hR h).append _).not_end.1

theorem members_not_end {w : Text} {ms : List (Text × WJson α)} (h : MembersText R w ms) (r : Text) : eat '}' (w ++ r) = none := by
  cases h with
  | last a k b c t d s v ha hk hb hc h hd =>
    simp only [List.append_assoc]
    rw [eat_blank ha]
    rfl
  | more a k b c t d s v ha hk hb hc h hd t' ms h' =>
    simp only [List.append_assoc]
    rw [eat_blank ha]
    rfl

private theorem q1 : ('[' = '"') = False := by decide
private theorem q2 : ('{' = '"') = False := by decide
private theorem q3 : ('{' = '[') = False := by decide

mutual
theorem value_complete (hR : Standard R) : ∀ {w : Text} {v : WJson α}, ValueText R w v → ∀ (n : Nat) (rest : Text), Ends rest →
    2 * w.length ≤ n → readValue R n (w ++ rest) = some (v, rest)
  | _, _, .null, n + 1, rest, _, _ => rfl
  | _, _, .true, n + 1, rest, _, _ => rfl
  | _, _, .false, n + 1, rest, _, _ => rfl
  | _, _, .number t x h hx, n, rest, hr, hn => by
    have hl := number_first hR h hx
    have hpos : 0 < t.length := List.length_pos_iff.2 hl.nonempty
    obtain ⟨m, rfl⟩ : ∃ m, n = m + 1 := ⟨n - 1, by omega⟩
    rw [hl.first.append (R := R) rest m]
    exact readScalar_num hl hr
  | _, _, .word t x h, n, rest, hr, hn => by
    have hl := word_first (word_mem hR h).word
    have hpos : 0 < t.length := by
      obtain ⟨c, w, e, -⟩ := hl.opens
      rw [e]; simp
    obtain ⟨m, rfl⟩ : ∃ m, n = m + 1 := ⟨n - 1, by omega⟩
    rw [hl.append (R := R) rest m]
    exact readScalar_words hR h rest
  | _, _, .string t s h, n, rest, _, hn => by
    simp only [List.length_append, List.length_singleton] at hn
    obtain ⟨m, rfl⟩ : ∃ m, n = m + 1 := ⟨n - 1, by omega⟩
    simp only [List.append_assoc, List.singleton_append, List.cons_append, List.nil_append]
    rw [readValue, skipWs_cons (by decide)]
    simp only [↓reduceIte]
    rw [(readString_iff (t ++ '"' :: rest) s rest).2 ⟨t, rfl, h⟩]
    rfl
  | _, _, .noItems w h, n, rest, _, hn => by
    simp only [List.length_append, List.length_singleton] at hn
    obtain ⟨m, rfl⟩ : ∃ m, n = m + 1 := ⟨n - 1, by omega⟩
    simp only [List.append_assoc, List.singleton_append, List.cons_append, List.nil_append]
    rw [readValue, skipWs_cons (by decide)]
    simp only [↓reduceIte, q1, q2, q3, if_false, (eat_iff (c := ']') (by decide) (w ++ ']' :: rest) rest).2 ⟨w, h, rfl⟩]
  | _, _, .array t vs h, n, rest, _, hn => by
    simp only [List.length_append, List.length_singleton] at hn
    obtain ⟨m, rfl⟩ : ∃ m, n = m + 1 := ⟨n - 1, by omega⟩
    simp only [List.append_assoc, List.singleton_append, List.cons_append, List.nil_append]
    rw [readValue, skipWs_cons (by decide)]
    simp only [↓reduceIte, q1, q2, q3, if_false, items_not_end hR h, items_complete hR h m rest (by omega)]
    rfl
  | _, _, .noMembers w h, n, rest, _, hn => by
    simp only [List.length_append, List.length_singleton] at hn
    obtain ⟨m, rfl⟩ : ∃ m, n = m + 1 := ⟨n - 1, by omega⟩
    simp only [List.append_assoc, List.singleton_append, List.cons_append, List.nil_append]
    rw [readValue, skipWs_cons (by decide)]
    simp only [↓reduceIte, q1, q2, q3, if_false, (eat_iff (c := '}') (by decide) (w ++ '}' :: rest) rest).2 ⟨w, h, rfl⟩]
  | _, _, .object t ms h, n, rest, _, hn => by
    simp only [List.length_append, List.length_singleton] at hn
    obtain ⟨m, rfl⟩ : ∃ m, n = m + 1 := ⟨n - 1, by omega⟩
    simp only [List.append_assoc, List.singleton_append, List.cons_append, List.nil_append]
    rw [readValue, skipWs_cons (by decide)]
    simp only [↓reduceIte, q1, q2, q3, if_false, members_not_end h, members_complete hR h m rest (by omega)]
    rfl
theorem items_complete (hR : Standard R) : ∀ {w : Text} {vs : List (WJson α)}, ItemsText R w vs → ∀ (n : Nat) (rest : Text),
    2 * w.length + 1 ≤ n → readItems R n (w ++ ']' :: rest) = some (vs, rest)
  | _, _, .last a t b v ha h hb, n, rest, hn => by
    simp only [List.length_append] at hn
    obtain ⟨c, w, e, -⟩ := value_opens hR h
    have hpos : 0 < t.length := by rw [e]; simp
    obtain ⟨m, rfl⟩ : ∃ m, n = m + 2 := ⟨n - 2, by omega⟩
    simp only [List.append_assoc]
    rw [readItems, readValue_blank ha, value_complete hR h (m + 1) (b ++ ']' :: rest) (ends_blank hb (by decide) _) (by omega)]
    simp only
    rw [readItemsTail, eat_blank hb, eat_blank hb]
    rfl
  | _, _, .more a t b v ha h hb t' vs h', n, rest, hn => by
    simp only [List.length_append, List.length_singleton] at hn
    obtain ⟨c, w, e, -⟩ := value_opens hR h
    have hpos : 0 < t.length := by rw [e]; simp
    obtain ⟨m, rfl⟩ : ∃ m, n = m + 2 := ⟨n - 2, by omega⟩
    simp only [List.append_assoc, List.singleton_append, List.cons_append, List.nil_append]
    rw [readItems, readValue_blank ha, value_complete hR h (m + 1) _ (ends_blank hb (by decide) _) (by omega)]
    simp only
    rw [readItemsTail, (eat_iff (by decide) _ (t' ++ ']' :: rest)).2 ⟨b, hb, rfl⟩]
    simp only
    rw [items_complete hR h' m rest (by omega)]
    rfl
theorem members_complete (hR : Standard R) : ∀ {w : Text} {ms : List (Text × WJson α)}, MembersText R w ms → ∀ (n : Nat) (rest : Text),
    2 * w.length + 1 ≤ n → readFields R n (w ++ '}' :: rest) = some (ms, rest)
  | _, _, .last a k b c t d s v ha hk hb hc h hd, n, rest, hn => by
    simp only [List.length_append, List.length_singleton] at hn
    obtain ⟨m, rfl⟩ : ∃ m, n = m + 2 := ⟨n - 2, by omega⟩
    simp only [List.append_assoc, List.singleton_append, List.cons_append, List.nil_append]
    rw [readFields, (eat_iff (by decide) _ _).2 ⟨a, ha, rfl⟩]
    simp only
    rw [(readString_iff _ s _).2 ⟨k, rfl, hk⟩]
    simp only
    rw [(eat_iff (by decide) _ _).2 ⟨b, hb, rfl⟩]
    simp only
    rw [readValue_blank hc, value_complete hR h (m + 1) _ (ends_blank hd (by decide) _) (by omega)]
    simp only
    rw [readFieldsTail, eat_blank hd, eat_blank hd]
    rfl
  | _, _, .more a k b c t d s v ha hk hb hc h hd t' ms h', n, rest, hn => by
    simp only [List.length_append, List.length_singleton] at hn
    obtain ⟨m, rfl⟩ : ∃ m, n = m + 2 := ⟨n - 2, by omega⟩
    simp only [List.append_assoc, List.singleton_append, List.cons_append, List.nil_append]
    rw [readFields, (eat_iff (by decide) _ _).2 ⟨a, ha, rfl⟩]
    simp only
    rw [(readString_iff _ s _).2 ⟨k, rfl, hk⟩]
    simp only
    rw [(eat_iff (by decide) _ _).2 ⟨b, hb, rfl⟩]
    simp only
    rw [readValue_blank hc, value_complete hR h (m + 1) _ (ends_blank hd (by decide) _) (by omega)]
    simp only
    rw [readFieldsTail, (eat_iff (by decide) _ (t' ++ '}' :: rest)).2 ⟨d, hd, rfl⟩]
    simp only
    rw [members_complete hR h' m rest (by omega)]
    rfl
end

/-- **C110.** `JSON.parse` and `json.loads` return a value for a text exactly if the text stands for that value according to the
grammar of JSON (with the words `NaN`, `Infinity` and `-Infinity` for `json.loads`). -/
theorem C110_grammar (hR : Standard R) (t : Text) (v : WJson α) : parseJson R t = some v ↔ DocumentText R t v := by
  unfold parseJson
  constructor
  · intro h
    cases h1 : readValue R (2 * t.length + 2) t with
    | none => rw [h1] at h; cases h
    | some p =>
      obtain ⟨u, r⟩ := p
      rw [h1] at h
      simp only at h
      split_ifs at h with h2
      cases h
      obtain ⟨a, w, e, ha, hv⟩ := (read_sound _).1 _ _ _ h1
      exact ⟨a, w, r, e, ha, hv, (skipWs_nil_iff r).1 h2⟩
  · rintro ⟨a, w, b, rfl, ha, hv, hb⟩
    have hends : Ends b := by
      cases b with
      | nil => exact ends_nil
      | cons c b =>
        have key : ∀ d ∈ [' ', '\t', '\n', '\r'], isNumChar d = false := by decide
        exact ends_cons (key c (hb c (by simp))) b
    have h1 := value_complete hR hv (2 * (a ++ w ++ b).length + 2) b hends (by simp only [List.length_append]; omega)
    rw [← readValue_blank ha, ← List.append_assoc] at h1
    rw [h1]
    simp only
    rw [if_pos ((skipWs_nil_iff b).2 hb)]

/-- **C110.** No text stands for two values, and a text that stands for none is refused. -/
theorem C110_refused (hR : Standard R) (t : Text) :
    (∀ v w, DocumentText R t v → DocumentText R t w → v = w) ∧ (parseJson R t = none ↔ ∀ v, ¬ DocumentText R t v) := by
  constructor
  · intro v w hv hw
    have := ((C110_grammar hR t v).2 hv).symm.trans ((C110_grammar hR t w).2 hw)
    exact Option.some.inj this
  · constructor
    · intro h v hv
      rw [(C110_grammar hR t v).2 hv] at h
      cases h
    · intro h
      cases e : parseJson R t with
      | none => rfl
      | some v => exact absurd ((C110_grammar hR t v).1 e) (h v)

/-! ### Not vacuous -/

theorem jsSome_standard : Standard jsSome := ⟨rfl, rfl, .inl rfl⟩

example : ∃ v, DocumentText jsSome " [15 , \"\\u00E9\\/\", {} ]\n".toList v ∧ pyDumps showSome v = "[15, \"\\u00e9/\", {}]".toList := by
  have h : (parseJson jsSome " [15 , \"\\u00E9\\/\", {} ]\n".toList).map (pyDumps showSome) = some "[15, \"\\u00e9/\", {}]".toList := by
    decide +kernel
  obtain ⟨v, hv, hs⟩ := Option.map_eq_some_iff.1 h
  exact ⟨v, (C110_grammar jsSome_standard _ _).1 hv, hs⟩

example (v : WJson Nat) : ¬ DocumentText jsSome "[15, ]".toList v :=
  ((C110_refused jsSome_standard _).2).1 (by decide +kernel) v

end TD
