import Verif.Lemmas.JsonText
import Verif.Spec.JsonGrammar
import Mathlib.Tactic.IntervalCases
/-! What the reader accepts. -/

namespace TD
open Spec

theorem char_of_toNat {c : Char} {n : Nat} (h : c.toNat = n) : c = Char.ofNat n := by
  rw [← h]; simp

theorem hexVal_iff (c : Char) (n : Nat) : hexVal c = some n ↔ HexChar c n := by
  constructor
  · intro h
    unfold hexVal at h
    simp only at h
    split_ifs at h with h1 h2 h3
    · obtain ⟨a, b⟩ := h1
      cases h
      left
      generalize hm : c.toNat = m at *
      rw [char_of_toNat hm]
      interval_cases m <;> decide
    · obtain ⟨a, b⟩ := h2
      cases h
      left
      generalize hm : c.toNat = m at *
      rw [char_of_toNat hm]
      interval_cases m <;> decide
    · obtain ⟨a, b⟩ := h3
      cases h
      right
      generalize hm : c.toNat = m at *
      rw [char_of_toNat hm]
      interval_cases m <;> decide
  · intro h
    have hn : n < 16 := by
      rcases h with h | h <;> exact (List.getElem?_eq_some_iff.1 h).1
    rcases h with h | h <;> interval_cases n <;> (cases h; decide)

theorem shortEscape_iff (e : Char) (u : Nat) : shortEscape e = some u ↔ (e, u) ∈ escapes := by
  unfold shortEscape escapes
  constructor
  · intro h
    split_ifs at h <;> cases h <;> subst_vars <;> simp
  · intro h
    simp only [List.mem_cons, Prod.mk.injEq, List.not_mem_nil, or_false] at h
    rcases h with ⟨rfl, rfl⟩ | ⟨rfl, rfl⟩ | ⟨rfl, rfl⟩ | ⟨rfl, rfl⟩ | ⟨rfl, rfl⟩ | ⟨rfl, rfl⟩ | ⟨rfl, rfl⟩ | ⟨rfl, rfl⟩ <;> decide

theorem codeUnits_iff (c : Char) (us : List Nat) : CodeUnits c us ↔ us = utf16 c := by
  have := char_lt c
  unfold CodeUnits utf16
  split_ifs with h
  · constructor
    · rintro (⟨-, h⟩ | ⟨hi, lo, h1, h2, h3, -⟩)
      · exact h
      · omega
    · intro e; exact .inl ⟨h, e⟩
  · constructor
    · rintro (⟨h', -⟩ | ⟨hi, lo, h1, h2, h3, h4⟩)
      · exact absurd h' h
      · rw [h4]
        have e1 : 0xd800 + hi = 0xd800 + (c.toNat - 0x10000) / 0x400 := by omega
        have e2 : 0xdc00 + lo = 0xdc00 + (c.toNat - 0x10000) % 0x400 := by omega
        rw [e1, e2]
    · intro e
      exact .inr ⟨(c.toNat - 0x10000) / 0x400, (c.toNat - 0x10000) % 0x400, by omega, by omega, by omega, e⟩

theorem hex4_iff (a b c d : Char) (u : Nat) : hex4 a b c d = some u ↔
    ∃ i j k m, HexChar a i ∧ HexChar b j ∧ HexChar c k ∧ HexChar d m ∧ u = ((i * 16 + j) * 16 + k) * 16 + m := by
  simp only [hex4, Option.bind_eq_bind, Option.bind_eq_some_iff, Option.pure_def, Option.some.injEq, hexVal_iff]
  constructor
  · rintro ⟨i, hi, j, hj, k, hk, m, hm, rfl⟩
    exact ⟨i, j, k, m, hi, hj, hk, hm, by ring⟩
  · rintro ⟨i, j, k, m, hi, hj, hk, hm, rfl⟩
    exact ⟨i, hi, j, hj, k, hk, m, hm, by ring⟩

theorem readUnits_sound : ∀ (n : Nat) (t : Text), t.length ≤ n → ∀ us r, readUnits t = some (us, r) →
    ∃ w, t = w ++ '"' :: r ∧ Quoted w us := by
  intro n
  induction n with
  | zero =>
    intro t ht us r h
    have : t = [] := List.length_eq_zero_iff.1 (by omega)
    subst this
    rw [readUnits.eq_def] at h
    cases h
  | succ n ih =>
    intro t ht us r h
    cases t with
    | nil => rw [readUnits.eq_def] at h; cases h
    | cons c t =>
      rw [readUnits.eq_def] at h
      simp only at h
      simp only [List.length_cons] at ht
      split_ifs at h with h1 h2 h3
      · cases h
        exact ⟨[], by simp [h1], .nil⟩
      · cases t with
        | nil => cases h
        | cons e t =>
          simp only [List.length_cons] at ht
          simp only at h
          split_ifs at h with h4
          · rcases t with _ | ⟨a, _ | ⟨b, _ | ⟨c', _ | ⟨d, t⟩⟩⟩⟩ <;> simp only at h
            · cases h
            · cases h
            · cases h
            · cases h
            · simp only [List.length_cons] at ht
              cases hx : hex4 a b c' d with
              | none => rw [hx] at h; cases h
              | some u =>
                rw [hx] at h
                simp only [Option.map_eq_some_iff] at h
                obtain ⟨⟨vs, r'⟩, h5, h6⟩ := h
                cases h6
                obtain ⟨w, hw, hq⟩ := ih t (by omega) _ _ h5
                obtain ⟨i, j, k, m, g1, g2, g3, g4, rfl⟩ := (hex4_iff _ _ _ _ _).1 hx
                subst h2 h4
                exact ⟨_, by rw [hw]; rfl, .unicode a b c' d i j k m w _ g1 g2 g3 g4 hq⟩
          · cases hx : shortEscape e with
            | none => rw [hx] at h; cases h
            | some u =>
              rw [hx] at h
              simp only [Option.map_eq_some_iff] at h
              obtain ⟨⟨vs, r'⟩, h5, h6⟩ := h
              cases h6
              obtain ⟨w, hw, hq⟩ := ih t (by omega) _ _ h5
              subst h2
              exact ⟨_, by rw [hw]; rfl, .escape e u w _ ((shortEscape_iff _ _).1 hx) hq⟩
      · simp only [Option.map_eq_some_iff] at h
        obtain ⟨⟨vs, r'⟩, h5, h6⟩ := h
        cases h6
        obtain ⟨w, hw, hq⟩ := ih t (by omega) _ _ h5
        exact ⟨c :: w, by rw [hw]; rfl, .plain c _ w _ (by omega) h1 h2 ((codeUnits_iff _ _).2 rfl) hq⟩

theorem readUnits_complete {w : Text} {us : List Nat} (h : Quoted w us) (r : Text) : readUnits (w ++ '"' :: r) = some (us, r) := by
  induction h with
  | nil => rw [List.nil_append, readUnits.eq_def]; simp
  | plain c us t vs h1 h2 h3 hc h ih =>
    rw [List.cons_append, readUnits.eq_def]
    simp only
    rw [if_neg h2, if_neg h3, if_neg (by omega), ih, (codeUnits_iff _ _).1 hc]
    rfl
  | escape e u t vs he h ih =>
    have hu : e ≠ 'u' := by
      rintro rfl
      exact absurd ((shortEscape_iff _ _).2 he) (by simp [shortEscape])
    rw [List.cons_append, List.cons_append, readUnits_short hu ((shortEscape_iff _ _).2 he), ih]
    rfl
  | unicode a b c d i j k m t vs ha hb hc hd h ih =>
    have hx := (hex4_iff a b c d _).2 ⟨i, j, k, m, ha, hb, hc, hd, rfl⟩
    simp only [List.cons_append]
    rw [readUnits.eq_def]
    simp only [hx, ih]
    rfl

theorem HexChar.lt {c : Char} {n : Nat} (h : HexChar c n) : n < 16 := by
  rcases h with h | h <;> exact (List.getElem?_eq_some_iff.1 h).1

theorem quoted_lt {w : Text} {us : List Nat} (h : Quoted w us) : ∀ u ∈ us, u < 0x10000 := by
  induction h with
  | nil => simp
  | plain c us t vs h1 h2 h3 hc h ih =>
    intro u hu
    rcases List.mem_append.1 hu with hu | hu
    · rcases hc with ⟨h, rfl⟩ | ⟨hi, lo, g1, g2, g3, rfl⟩
      · rw [List.mem_singleton.1 hu]; exact h
      · simp only [List.mem_cons, List.not_mem_nil, or_false] at hu
        omega
    · exact ih u hu
  | escape e u t vs he h ih =>
    intro v hv
    rcases List.mem_cons.1 hv with rfl | hv
    · simp only [escapes, List.mem_cons, Prod.mk.injEq, List.not_mem_nil, or_false] at he
      omega
    · exact ih v hv
  | unicode a b c d i j k m t vs ha hb hc hd h ih =>
    intro v hv
    have := HexChar.lt ha
    have := HexChar.lt hb
    have := HexChar.lt hc
    have := HexChar.lt hd
    rcases List.mem_cons.1 hv with rfl | hv
    · omega
    · exact ih v hv

theorem toNat_ofNat {n : Nat} (h : n < 0xd800 ∨ (0xdfff < n ∧ n < 0x110000)) : (Char.ofNat n).toNat = n := by
  have hv : n.isValidChar := by
    unfold Nat.isValidChar
    omega
  unfold Char.ofNat
  rw [dif_pos hv]
  simp [Char.toNat, Char.ofNatAux]

theorem decodeUnits_sound : ∀ (n : Nat) (us : List Nat), us.length ≤ n → (∀ u ∈ us, u < 0x10000) → ∀ s, decodeUnits us = some s →
    us = s.flatMap utf16 := by
  intro n
  induction n with
  | zero =>
    intro us hl _ s h
    have : us = [] := List.length_eq_zero_iff.1 (by omega)
    subst this
    rw [decodeUnits.eq_def] at h
    cases h
    rfl
  | succ n ih =>
    intro us hl hu s h
    cases us with
    | nil => rw [decodeUnits.eq_def] at h; cases h; rfl
    | cons u us =>
      simp only [List.length_cons] at hl
      rw [decodeUnits.eq_def] at h
      simp only at h
      have hu0 := hu u (by simp)
      split_ifs at h with h1 h2
      · cases us with
        | nil => cases h
        | cons v vs =>
          simp only [List.length_cons] at hl
          simp only at h
          split_ifs at h with h3
          simp only [Option.map_eq_some_iff] at h
          obtain ⟨s', h4, rfl⟩ := h
          have := ih vs (by omega) (fun w hw => hu w (by simp [hw])) _ h4
          rw [List.flatMap_cons, ← this]
          have e := toNat_ofNat (n := 0x10000 + (u - 0xd800) * 0x400 + (v - 0xdc00)) (by omega)
          unfold utf16
          rw [e, if_neg (by omega)]
          simp only [List.cons_append, List.nil_append]
          have e1 : 0xd800 + (0x10000 + (u - 0xd800) * 0x400 + (v - 0xdc00) - 0x10000) / 0x400 = u := by omega
          have e2 : 0xdc00 + (0x10000 + (u - 0xd800) * 0x400 + (v - 0xdc00) - 0x10000) % 0x400 = v := by omega
          rw [e1, e2]
      · simp only [Option.map_eq_some_iff] at h
        obtain ⟨s', h4, rfl⟩ := h
        have := ih us (by omega) (fun w hw => hu w (by simp [hw])) _ h4
        rw [List.flatMap_cons, ← this]
        have e := toNat_ofNat (n := u) (by omega)
        unfold utf16
        rw [e, if_pos hu0]
        rfl

theorem stringText_iff (w s : Text) : StringText w s ↔ Quoted w (s.flatMap utf16) := by
  have key : ∀ us : List (List Nat), List.Forall₂ CodeUnits s us ↔ us = s.map utf16 := by
    induction s with
    | nil =>
      intro us
      constructor
      · intro h; cases h; rfl
      · rintro rfl; exact .nil
    | cons c s ih =>
      intro us
      constructor
      · intro h
        cases h with
        | cons h1 h2 => rw [(codeUnits_iff _ _).1 h1, (ih _).1 h2]; rfl
      · rintro rfl
        exact .cons ((codeUnits_iff _ _).2 rfl) ((ih _).2 rfl)
  unfold StringText
  constructor
  · rintro ⟨us, h1, h2⟩
    rw [(key us).1 h1] at h2
    rwa [List.flatMap_def]
  · intro h
    refine ⟨s.map utf16, (key _).2 rfl, ?_⟩
    rwa [← List.flatMap_def]

theorem readString_iff (t s r : Text) : readString t = some (s, r) ↔ ∃ w, t = w ++ '"' :: r ∧ StringText w s := by
  unfold readString
  constructor
  · intro h
    cases hr : readUnits t with
    | none => rw [hr] at h; cases h
    | some p =>
      obtain ⟨us, r'⟩ := p
      rw [hr] at h
      simp only [Option.map_eq_some_iff] at h
      obtain ⟨s', h1, h2⟩ := h
      cases h2
      obtain ⟨w, hw, hq⟩ := readUnits_sound _ t le_rfl _ _ hr
      refine ⟨w, hw, (stringText_iff _ _).2 ?_⟩
      rwa [← decodeUnits_sound _ us le_rfl (quoted_lt hq) _ h1]
  · rintro ⟨w, rfl, h⟩
    rw [readUnits_complete ((stringText_iff _ _).1 h)]
    simp [decodeUnits_utf16]

/-! ### White space -/

theorem isJsonSpace_iff (c : Char) : isJsonSpace c = true ↔ c ∈ [' ', '\t', '\n', '\r'] := by
  simp [isJsonSpace, or_assoc]

theorem skipWs_blank {a : Text} (h : Blank a) (t : Text) : skipWs (a ++ t) = skipWs t := by
  induction a with
  | nil => rfl
  | cons c a ih =>
    have hc : isJsonSpace c = true := (isJsonSpace_iff c).2 (h c (by simp))
    rw [← ih fun d hd => h d (by simp [hd])]
    simp [skipWs, hc]

theorem skipWs_split (t : Text) : ∃ a, Blank a ∧ t = a ++ skipWs t := by
  refine ⟨t.takeWhile isJsonSpace, ?_, (List.takeWhile_append_dropWhile).symm⟩
  intro c hc
  refine (isJsonSpace_iff c).1 ?_
  have := List.all_takeWhile (l := t) (p := isJsonSpace)
  rw [List.all_eq_true] at this
  exact this c hc

theorem skipWs_nil_iff (t : Text) : skipWs t = [] ↔ Blank t := by
  constructor
  · intro h
    obtain ⟨a, ha, e⟩ := skipWs_split t
    rw [h, List.append_nil] at e
    rwa [e]
  · intro h
    have := skipWs_blank h []
    rw [List.append_nil] at this
    rw [this]; rfl

theorem eat_iff {c : Char} (hc : isJsonSpace c = false) (t r : Text) : eat c t = some r ↔ ∃ a, Blank a ∧ t = a ++ c :: r := by
  unfold eat
  constructor
  · intro h
    obtain ⟨a, ha, e⟩ := skipWs_split t
    cases hs : skipWs t with
    | nil => rw [hs] at h; cases h
    | cons d r' =>
      rw [hs] at h e
      simp only at h
      split_ifs at h with hd
      cases h
      exact ⟨a, ha, by rw [← hd]; exact e⟩
  · rintro ⟨a, ha, rfl⟩
    rw [skipWs_blank ha, skipWs_cons hc]
    simp

theorem eat_blank {a : Text} (h : Blank a) (c : Char) (t : Text) : eat c (a ++ t) = eat c t := by
  unfold eat
  rw [skipWs_blank h]

end TD
