import Verif.Spec.Argparse
import Mathlib.Data.List.Nodup
/-!
# `argparse` reads command lines as specified
-/

namespace TD
open Spec
variable {κ : Type} {digit : Char → Option Nat} {T : List (Opt κ)}

theorem partitionEq_none {w : Text} : partitionEq w = none ↔ '=' ∉ w := by
  induction w with
  | nil => simp [partitionEq]
  | cons c r ih =>
    unfold partitionEq
    by_cases h : c = '='
    · simp [h]
    · simp [h, ih, Ne.symm h]

theorem partitionEq_some {w n e : Text} : partitionEq w = some (n, e) ↔ w = n ++ '=' :: e ∧ '=' ∉ n := by
  induction w generalizing n with
  | nil => simp [partitionEq]
  | cons c r ih =>
    unfold partitionEq
    by_cases h : c = '='
    · subst h
      simp only [if_pos, Option.some.injEq, Prod.mk.injEq]
      constructor
      · rintro ⟨rfl, rfl⟩; simp
      · rintro ⟨h1, h2⟩
        cases n with
        | nil => exact ⟨rfl, by simpa using h1⟩
        | cons d n =>
          have : '=' = d := (List.cons.inj h1).1
          subst this
          simp at h2
    · simp only [if_neg h, Option.map_eq_some_iff, Prod.mk.injEq]
      constructor
      · rintro ⟨⟨n', e'⟩, h1, rfl, rfl⟩
        obtain ⟨rfl, h2⟩ := ih.1 h1
        refine ⟨rfl, ?_⟩
        simp [h2, Ne.symm h]
      · rintro ⟨h1, h2⟩
        cases n with
        | nil => exact absurd (List.cons.inj h1).1 h
        | cons d n =>
          obtain ⟨rfl, h3⟩ := List.cons.inj h1
          exact ⟨(n, e), ih.2 ⟨h3, fun h => h2 (List.mem_cons_of_mem _ h)⟩, rfl, rfl⟩

theorem named_unique (hT : TableOk T) {n : Text} {o o' : Opt κ} (h : Named T n o) (h' : Named T n o') : o = o' := by
  have hu := hT.unique
  obtain ⟨h1, h2⟩ := h
  obtain ⟨h1', h2'⟩ := h'
  clear hT
  induction T with
  | nil => cases h1
  | cons a T ih =>
    rw [List.flatMap_cons, List.nodup_append] at hu
    obtain ⟨-, hu1, hu2⟩ := hu
    rcases List.mem_cons.1 h1 with rfl | g1
    · rcases List.mem_cons.1 h1' with rfl | g1'
      · rfl
      · exact absurd rfl (hu2 n h2 n (List.mem_flatMap.2 ⟨_, g1', h2'⟩))
    · rcases List.mem_cons.1 h1' with rfl | g1'
      · exact absurd rfl (hu2 n h2' n (List.mem_flatMap.2 ⟨_, g1, h2⟩))
      · exact ih hu1 g1 g1'

theorem lookup_named {n : Text} {o : Opt κ} (h : lookupOpt T n = some o) : Named T n o := by
  unfold lookupOpt at h
  exact ⟨List.mem_of_find?_eq_some h, by simpa using List.find?_some h⟩

theorem lookup_iff (hT : TableOk T) {n : Text} {o : Opt κ} : lookupOpt T n = some o ↔ Named T n o := by
  refine ⟨lookup_named, fun h => ?_⟩
  cases hl : lookupOpt T n with
  | none =>
    have := List.find?_eq_none.1 hl o h.1
    simp [h.2] at this
  | some o' => rw [named_unique hT h (lookup_named hl)]

theorem lookup_none (hT : TableOk T) {n : Text} : lookupOpt T n = none ↔ ∀ o, ¬ Named T n o := by
  constructor
  · intro h o ho
    rw [(lookup_iff hT).2 ho] at h
    cases h
  · intro h
    cases hl : lookupOpt T n with
    | none => rfl
    | some o => exact absurd (lookup_named hl) (h o)

/-! ### One word -/

/-- How a word is read as an option. -/
inductive Reads (T : List (Opt κ)) (w : Text) : Tok κ → Prop
  | plain (n : Text) (o : Opt κ) (h : Calls T w o) : Reads T w (.opt o n false none)
  | joined (n n' : Text) (o : Opt κ) (v : Text) (h : Calls T n' o) (hw : w = n' ++ '=' :: v)
      (hn : n = n' ∨ (n[1]? = some '-' ∧ n'[1]? = some '-')) : Reads T w (.opt o n true (some v))
  | attached (c d : Char) (o : Opt κ) (v : Text) (h : Named T ['-', c] o) (hw : w = '-' :: c :: d :: v) (hd : d ≠ '=') :
      Reads T w (.opt o ['-', c] false (some (d :: v)))

theorem named_head (hT : TableOk T) {n : Text} {o : Opt κ} (h : Named T n o) : n.head? = some '-' := by
  rcases hT.shape n o h with ⟨c, rfl, -⟩ | ⟨c, r, rfl, -⟩ <;> rfl

theorem named_eq (hT : TableOk T) {n : Text} {o : Opt κ} (h : Named T n o) : '=' ∉ n := by
  rcases hT.shape n o h with ⟨c, rfl, -, hc⟩ | ⟨c, r, rfl, h⟩
  · simp [Ne.symm hc]
  · exact h

theorem calls_eq (hT : TableOk T) {n : Text} {o : Opt κ} (h : Calls T n o) : '=' ∉ n := by
  cases h with
  | name _ h => exact named_eq hT h
  | abbreviation m _ hn h hm only =>
    intro hc
    exact named_eq hT h (hm.subset hc)

theorem calls_unique (hT : TableOk T) {n : Text} {o o' : Opt κ} (h : Calls T n o) (h' : Calls T n o') : o = o' := by
  cases h with
  | name _ h =>
    cases h' with
    | name _ h' => exact named_unique hT h h'
    | abbreviation m _ hn h' hm only =>
      have := only n o h List.prefix_rfl
      subst this
      exact named_unique hT h h'
  | abbreviation m _ hn h hm only =>
    cases h' with
    | name _ h' =>
      have := only n o' h' List.prefix_rfl
      subst this
      exact named_unique hT h h'
    | abbreviation m' _ hn' h' hm' only' =>
      have := only _ _ h' hm'
      subst this
      exact named_unique hT h h'

/-- The long names that begin like this. -/
def longMatches (T : List (Opt κ)) (p : Text) : List (Opt κ × Text) :=
  T.flatMap fun o => o.names.filterMap fun n => if p.isPrefixOf n then some (o, n) else none

theorem mem_longMatches {p : Text} {o : Opt κ} {n : Text} : (o, n) ∈ longMatches T p ↔ Named T n o ∧ p <+: n := by
  simp only [longMatches, List.mem_flatMap, List.mem_filterMap, Option.ite_none_right_eq_some, Option.some.injEq,
    Prod.mk.injEq, List.isPrefixOf_iff_prefix]
  constructor
  · rintro ⟨o', h1, n', h2, h3, rfl, rfl⟩; exact ⟨⟨h1, h2⟩, h3⟩
  · rintro ⟨⟨h1, h2⟩, h3⟩; exact ⟨o, h1, n, h2, h3, rfl, rfl⟩

theorem longMatches_snd (p : Text) : (longMatches T p).map Prod.snd = (T.flatMap Opt.names).filter fun n => p.isPrefixOf n := by
  simp only [longMatches, List.map_flatMap, List.filter_flatMap]
  congr 1
  funext o
  induction o.names with
  | nil => rfl
  | cons n ns ih =>
    simp only [List.filterMap_cons, List.filter_cons]
    by_cases h : p.isPrefixOf n = true
    · simp only [h, if_true, List.map_cons, ih]
    · rw [if_neg h, if_neg h]
      exact ih

theorem longMatches_nodup (hT : TableOk T) (p : Text) : ((longMatches T p).map Prod.snd).Nodup := by
  rw [longMatches_snd]
  exact hT.unique.filter _

/-- Exactly one long name begins like this. -/
theorem longMatches_single (hT : TableOk T) {p : Text} {o : Opt κ} {n : Text} :
    longMatches T p = [(o, n)] ↔ (Named T n o ∧ p <+: n ∧ ∀ m' o', Named T m' o' → p <+: m' → m' = n) := by
  constructor
  · intro h
    have hm := mem_longMatches.1 (show (o, n) ∈ longMatches T p by rw [h]; simp)
    refine ⟨hm.1, hm.2, fun m' o' h1 h2 => ?_⟩
    have := mem_longMatches.2 ⟨h1, h2⟩
    rw [h] at this
    simp only [List.mem_singleton, Prod.mk.injEq] at this
    exact this.2
  · rintro ⟨h1, h2, h3⟩
    have hm := mem_longMatches.2 ⟨h1, h2⟩
    have hall : ∀ q ∈ longMatches T p, q = (o, n) := by
      rintro ⟨o', n'⟩ hq
      obtain ⟨g1, g2⟩ := mem_longMatches.1 hq
      obtain rfl := h3 _ _ g1 g2
      rw [named_unique hT g1 h1]
    have hnd : (longMatches T p).Nodup := (List.Nodup.of_map Prod.snd) (longMatches_nodup hT p)
    generalize longMatches T p = L at *
    match L with
    | [] => cases hm
    | [q] => rw [hall q (by simp)]
    | q :: q' :: L =>
      have e1 := hall q (by simp)
      have e2 := hall q' (by simp)
      rw [e1, e2] at hnd
      simp at hnd

theorem ite_map {β γ : Type} (b : Bool) (f : β → γ) (y : β) :
    (if b = true then some (f y) else none) = Option.map f (if b = true then some y else none) := by
  cases b <;> rfl

theorem optionTuples_long {w : Text} (h1 : w[1]? = some '-') :
    optionTuples T w = (longMatches T ((partitionEq w).elim w Prod.fst)).map fun q =>
      .opt q.1 q.2 (partitionEq w).isSome ((partitionEq w).map Prod.snd) := by
  unfold optionTuples longMatches
  rw [if_pos h1, List.map_flatMap]
  dsimp only
  congr 1
  funext o
  rw [List.map_filterMap]
  congr 1
  funext n
  cases h : partitionEq w with
  | none =>
    simp only [Option.elim]
    exact ite_map _ (fun q : Opt κ × Text => Tok.opt q.1 q.2 _ _) (o, n)
  | some p =>
    obtain ⟨a, b⟩ := p
    simp only [Option.elim]
    exact ite_map _ (fun q : Opt κ × Text => Tok.opt q.1 q.2 _ _) (o, n)

/-- The short option that begins like this. -/
theorem optionTuples_short (hT : TableOk T) {c d : Char} {v : Text} (hc : c ≠ '-') :
    optionTuples T ('-' :: c :: d :: v) = match lookupOpt T ['-', c] with
      | some o => [.opt o ['-', c] false (some (d :: v))]
      | none => [] := by
  have hlen : ∀ n o, Named T n o → ('-' :: c :: d :: v).isPrefixOf n = false := by
    intro n o h
    rw [Bool.eq_false_iff, ne_eq, List.isPrefixOf_iff_prefix]
    intro hp
    rcases hT.shape n o h with ⟨x, rfl, -⟩ | ⟨x, r, rfl, -⟩
    · have := hp.length_le
      simp at this
    · obtain ⟨t, ht⟩ := hp
      simp only [List.cons_append, List.cons.injEq, true_and] at ht
      exact hc ht.1
  have e : optionTuples T ('-' :: c :: d :: v) = T.flatMap fun o => o.names.filterMap fun n =>
      if n = ['-', c] then some (.opt o n false (some (d :: v))) else none := by
    unfold optionTuples
    rw [if_neg (by simpa using hc)]
    apply List.flatMap_congr
    intro o ho
    apply List.filterMap_congr
    intro n hn
    simp only [List.take_succ_cons, List.take_zero, List.drop_succ_cons, List.drop_zero, hlen n o ⟨ho, hn⟩,
      Bool.false_eq_true, if_false]
  rw [e]
  clear e hlen
  have key : ∀ n o, (Tok.opt o n false (some (d :: v))) ∈ (T.flatMap fun o => o.names.filterMap fun n =>
      if n = ['-', c] then some (Tok.opt o n false (some (d :: v))) else none) ↔ n = ['-', c] ∧ Named T n o := by
    intro n o
    simp only [List.mem_flatMap, List.mem_filterMap, Option.ite_none_right_eq_some, Option.some.injEq, Tok.opt.injEq]
    constructor
    · rintro ⟨o', h1, n', h2, h3, rfl, rfl, -⟩; exact ⟨h3, h1, h2⟩
    · rintro ⟨h1, h2, h3⟩; exact ⟨o, h2, n, h3, h1, by simp⟩
  have hall : ∀ t ∈ (T.flatMap fun o => o.names.filterMap fun n =>
      if n = ['-', c] then some (Tok.opt o n false (some (d :: v))) else none),
      ∃ o, t = .opt o ['-', c] false (some (d :: v)) ∧ Named T ['-', c] o := by
    intro t ht
    simp only [List.mem_flatMap, List.mem_filterMap, Option.ite_none_right_eq_some, Option.some.injEq] at ht
    obtain ⟨o, h1, n, h2, rfl, rfl⟩ := ht
    exact ⟨o, rfl, h1, h2⟩
  have hcount : (T.flatMap fun o => o.names.filterMap fun n =>
      if n = ['-', c] then some (Tok.opt o n false (some (d :: v))) else none).length ≤ 1 := by
    have h2 : (T.flatMap fun o => o.names.filterMap fun n =>
        if n = ['-', c] then some (Tok.opt o n false (some (d :: v))) else none).length =
        ((T.flatMap Opt.names).filter fun n => decide (n = ['-', c])).length := by
      rw [List.filter_flatMap, List.length_flatMap, List.length_flatMap]
      congr 2
      funext o
      induction o.names with
      | nil => rfl
      | cons n ns ih =>
        simp only [List.filterMap_cons, List.filter_cons]
        by_cases h : n = ['-', c]
        · simp [h, ih]
        · simp [h, ih]
    rw [h2, ← List.countP_eq_length_filter]
    have h3 := List.nodup_iff_count_le_one.1 hT.unique ['-', c]
    have h4 : List.countP (fun n => decide (n = ['-', c])) (T.flatMap Opt.names) =
        List.count ['-', c] (T.flatMap Opt.names) := by
      unfold List.count
      congr 1
      funext n
      by_cases h : n = ['-', c]
      · simp [h]
      · simp [h]
    omega
  generalize (T.flatMap fun o => o.names.filterMap fun n =>
      if n = ['-', c] then some (Tok.opt o n false (some (d :: v))) else none) = L at *
  match L with
  | [] =>
    cases hl : lookupOpt T ['-', c] with
    | none => rfl
    | some o =>
      have := (key ['-', c] o).2 ⟨rfl, lookup_named hl⟩
      cases this
  | [t] =>
    obtain ⟨o, rfl, ho⟩ := hall t (by simp)
    rw [(lookup_iff hT).2 ho]
  | _ :: _ :: _ => simp at hcount

/-! ### Negative numbers -/

/-- The part of a number after the minus sign. -/
def numBody (digit : Char → Option Nat) (r : Text) : Bool :=
  (!r.isEmpty && r.all fun c => (digit c).isSome) ||
    (r.dropWhile (fun c => (digit c).isSome)).head? == some '.' &&
      (!(r.dropWhile fun c => (digit c).isSome).tail.isEmpty &&
        (r.dropWhile fun c => (digit c).isSome).tail.all fun c => (digit c).isSome)

theorem numBody_iff (hdot : digit '.' = none) (r : Text) : numBody digit r = true ↔
    ∃ ds, ds ≠ [] ∧ (∀ c ∈ ds, (digit c).isSome) ∧
      (r = ds ∨ ∃ ip, (∀ c ∈ ip, (digit c).isSome) ∧ r = ip ++ '.' :: ds) := by
  unfold numBody
  simp only [Bool.or_eq_true, Bool.and_eq_true, Bool.not_eq_true', List.isEmpty_eq_false_iff, List.all_eq_true, beq_iff_eq]
  constructor
  · rintro (⟨h1, h2⟩ | ⟨h1, h2, h3⟩)
    · exact ⟨r, h1, h2, .inl rfl⟩
    · refine ⟨_, h2, h3, .inr ⟨r.takeWhile fun c => (digit c).isSome, ?_, ?_⟩⟩
      · intro c hc
        exact List.all_eq_true.1 (List.all_takeWhile (p := fun c => (digit c).isSome)) c hc
      · conv_lhs => rw [← List.takeWhile_append_dropWhile (p := fun c => (digit c).isSome) (l := r)]
        congr 1
        generalize r.dropWhile (fun c => (digit c).isSome) = u at h1 h2 h3
        cases u with
        | nil => cases h1
        | cons c u => simp at h1; simp [h1]
  · rintro ⟨ds, h1, h2, rfl | ⟨ip, h3, rfl⟩⟩
    · exact .inl ⟨h1, h2⟩
    · right
      have : (ip ++ '.' :: ds).dropWhile (fun c => (digit c).isSome) = '.' :: ds := by
        rw [List.dropWhile_append_of_pos h3, List.dropWhile_cons_of_neg (by simp [hdot])]
      rw [this]
      exact ⟨rfl, h1, h2⟩

theorem chomp_eq (r : Text) : ∃ nl, (nl = [] ∨ nl = ['\n']) ∧ r = chomp r ++ nl := by
  unfold chomp
  split
  · rename_i h
    refine ⟨['\n'], .inr rfl, ?_⟩
    rcases List.eq_nil_or_concat r with rfl | ⟨a, b, rfl⟩
    · simp at h
    · simp at h
      simp [h]
  · exact ⟨[], .inl rfl, by simp⟩

theorem negativeNumber_iff (hdot : digit '.' = none) (w : Text) :
    negativeNumber digit w = true ↔ Negative digit w := by
  constructor
  · intro h
    unfold negativeNumber at h
    split at h
    · rename_i r
      have h' : numBody digit r = true ∨ numBody digit (chomp r) = true := by
        rw [Bool.or_eq_true] at h
        exact h
      rcases h' with h' | h'
      · obtain ⟨ds, h1, h2, h3⟩ := (numBody_iff hdot r).1 h'
        refine ⟨ds, [], .inl rfl, h1, h2, ?_⟩
        rcases h3 with rfl | ⟨ip, h3, rfl⟩
        · left; simp
        · right; exact ⟨ip, h3, by simp⟩
      · obtain ⟨ds, h1, h2, h3⟩ := (numBody_iff hdot _).1 h'
        obtain ⟨nl, hnl, hr⟩ := chomp_eq r
        refine ⟨ds, nl, hnl, h1, h2, ?_⟩
        rcases h3 with h3 | ⟨ip, h3, h4⟩
        · left; rw [← h3, ← hr]
        · right
          refine ⟨ip, h3, ?_⟩
          rw [h4] at hr
          rw [hr]
          simp
    · cases h
  · rintro ⟨ds, nl, hnl, h1, h2, h3⟩
    have key : ∀ r, numBody digit r = true → negativeNumber digit ('-' :: (r ++ nl)) = true := by
      intro r hr
      show (numBody digit (r ++ nl) || numBody digit (chomp (r ++ nl))) = true
      rcases hnl with rfl | rfl
      · rw [List.append_nil, hr]; rfl
      · have : chomp (r ++ ['\n']) = r := by simp [chomp]
        rw [this, hr]; simp
    rcases h3 with rfl | ⟨ip, h3, rfl⟩
    · exact key ds ((numBody_iff hdot ds).2 ⟨ds, h1, h2, .inl rfl⟩)
    · have := key (ip ++ '.' :: ds) ((numBody_iff hdot _).2 ⟨ds, h1, h2, .inr ⟨ip, h3, rfl⟩⟩)
      simpa using this

/-! ### One word -/

theorem calls_long {n : Text} {o : Opt κ} (h : Calls T n o) : (∃ o', Named T n o') ∨ n[1]? = some '-' := by
  cases h with
  | name _ h => exact .inl ⟨_, h⟩
  | abbreviation m _ hn h hm only =>
    obtain ⟨t, rfl⟩ := hn
    exact .inr rfl

theorem prefix_head {n m : Text} (hn : ['-', '-'] <+: n) : n.head? = some '-' ∧ n[1]? = some '-' ∧ n.length ≠ 1 := by
  obtain ⟨t, rfl⟩ := hn
  exact ⟨rfl, rfl, by simp⟩

/-- What a word that begins with `-` is read as. -/
theorem parseOptional_cases (hT : TableOk T) (hdot : digit '.' = none) (w : Text) :
    (∃ t, parseOptional digit T w = some t ∧ Reads T w t) ∨
    (parseOptional digit T w = some (.arg w) ∧ (w ≠ ['-', '-'] → Value digit T w)) ∨
    (parseOptional digit T w = some (.unknown w) ∧ w.head? = some '-' ∧ w ≠ ['-'] ∧
      ¬ (Negative digit w ∨ ' ' ∈ w)) ∨
    (parseOptional digit T w = none ∧ OptionLike T w) := by
  unfold parseOptional
  by_cases hh : w.head? ≠ some '-'
  · right; left
    rw [if_pos hh]
    exact ⟨rfl, fun _ => .inl hh⟩
  rw [if_neg hh]
  have hh' : w.head? = some '-' := not_not.1 hh
  cases hl : lookupOpt T w with
  | some o => exact .inl ⟨_, rfl, .plain w o (.name _ _ (lookup_named hl))⟩
  | none =>
    dsimp only
    by_cases h1 : w.length = 1
    · right; left
      rw [if_pos h1]
      refine ⟨rfl, fun _ => .inr (.inl ?_)⟩
      obtain ⟨c, rfl⟩ := List.length_eq_one_iff.1 h1
      simpa using hh'
    rw [if_neg h1]
    have hnamed := (lookup_none hT).1 hl
    -- the word before `=`
    cases hp : ((partitionEq w).bind fun p => (lookupOpt T p.1).map fun o => (o, p)) with
    | some q =>
      obtain ⟨o, n, e⟩ := q
      obtain ⟨⟨n', e'⟩, g1, g2⟩ := Option.bind_eq_some_iff.1 hp
      obtain ⟨o', g3, g4⟩ := Option.map_eq_some_iff.1 g2
      cases g4
      obtain ⟨g5, g6⟩ := partitionEq_some.1 g1
      exact .inl ⟨_, rfl, .joined n n o e (.name _ _ (lookup_named g3)) g5 (.inl rfl)⟩
    | none =>
      dsimp only
      have hpn : ∀ n e, w = n ++ '=' :: e → '=' ∉ n → ∀ o, ¬ Named T n o := by
        intro n e g1 g2 o ho
        rw [partitionEq_some.2 ⟨g1, g2⟩] at hp
        simp [(lookup_iff hT).2 ho] at hp
      by_cases hd : w[1]? = some '-'
      · -- two dashes
        have hpre : ['-', '-'] <+: w := by
          match w, hh', hd with
          | a :: b :: r, h1, h2 =>
            simp at h1 h2
            subst h1; subst h2
            exact ⟨r, rfl⟩
        rw [optionTuples_long hd]
        obtain ⟨p, hpdef⟩ : ∃ p, p = (partitionEq w).elim w Prod.fst := ⟨_, rfl⟩
        have hsplit : (partitionEq w = none ∧ p = w) ∨ ∃ e, partitionEq w = some (p, e) ∧ w = p ++ '=' :: e := by
          cases hq : partitionEq w with
          | none => rw [hq] at hpdef; exact .inl ⟨rfl, hpdef⟩
          | some q =>
            obtain ⟨a, b⟩ := q
            rw [hq] at hpdef
            simp only [Option.elim] at hpdef
            subst hpdef
            exact .inr ⟨b, rfl, (partitionEq_some.1 hq).1⟩
        have hpp : ['-', '-'] <+: p := by
          rcases hsplit with ⟨-, rfl⟩ | ⟨e, h1, h2⟩
          · exact hpre
          · obtain ⟨t, ht⟩ := hpre
            rw [← ht] at h2
            match p, h2 with
            | [], h2 => simp at h2
            | [a], h2 => simp at h2
            | a :: b :: r, h2 =>
              simp at h2
              obtain ⟨rfl, rfl, -⟩ := h2
              exact ⟨r, rfl⟩
        rw [← hpdef]
        cases hL : longMatches T p with
        | nil =>
          have hnot : ¬ OptionLike T w := by
            have hno : ∀ m o, Named T m o → ¬ p <+: m := by
              intro m o h1 h2
              have := mem_longMatches.2 ⟨h1, h2⟩
              rw [hL] at this
              cases this
            have key : ∀ n m o v, Named T m o → n <+: m → (w = n ∨ w = n ++ '=' :: v) → '=' ∉ n → False := by
              intro n m o v h1 h2 h3 h4
              have : n = p := by
                rcases h3 with rfl | h3
                · rcases hsplit with ⟨-, rfl⟩ | ⟨e, h5, h6⟩
                  · rfl
                  · rw [h6] at h4; simp at h4
                · have h5 := partitionEq_some.2 ⟨h3, h4⟩
                  rcases hsplit with ⟨h6, -⟩ | ⟨e, h6, -⟩
                  · rw [h6] at h5; cases h5
                  · rw [h6] at h5; cases h5; rfl
              subst this
              exact hno m o h1 h2
            rintro (⟨n, o, v, h1, h2⟩ | ⟨n, m, o, v, h1, h2, h3, h4⟩ | ⟨c, o, h1, h2⟩)
            · exact key n n o v h1 List.prefix_rfl h2 (named_eq hT h1)
            · exact key n m o v h2 h3 h4 (fun h => named_eq hT h2 (h3.subset h))
            · obtain ⟨t, ht⟩ := h2
              rw [← ht] at hd
              simp at hd
              rcases hT.shape _ _ h1 with ⟨x, g1, g2, -⟩ | ⟨x, r, g1, -⟩
              · simp at g1
                exact g2 (g1.symm.trans hd)
              · simp at g1
          simp only [List.map_nil]
          by_cases hneg : (negativeNumber digit w || w.contains ' ') = true
          · right; left
            rw [if_pos hneg]
            refine ⟨rfl, fun hne => .inr (.inr ⟨hne, hnot, ?_⟩)⟩
            rw [Bool.or_eq_true, negativeNumber_iff hdot] at hneg
            rcases hneg with h | h
            · exact .inl h
            · exact .inr (by simpa using h)
          · right; right; left
            rw [if_neg hneg]
            refine ⟨rfl, hh', fun h => by simp [h] at h1, ?_⟩
            rintro (h | h)
            · exact hneg (by rw [(negativeNumber_iff hdot w).2 h]; rfl)
            · exact hneg (by simp [h])
        | cons q L =>
          obtain ⟨o, n⟩ := q
          cases L with
          | cons q' L =>
            refine .inr (.inr (.inr ⟨rfl, .inr (.inl ?_)⟩))
            obtain ⟨g1, g2⟩ := mem_longMatches.1 (show (o, n) ∈ longMatches T p by rw [hL]; simp)
            rcases hsplit with ⟨-, rfl⟩ | ⟨e, -, h6⟩
            · exact ⟨_, n, o, [], hpp, g1, g2, .inl rfl⟩
            · exact ⟨p, n, o, e, hpp, g1, g2, .inr h6⟩
          | nil =>
            obtain ⟨g1, g2, g3⟩ := (longMatches_single hT).1 hL
            have hcalls : Calls T p o := .abbreviation p n o hpp g1 g2 g3
            left
            refine ⟨_, rfl, ?_⟩
            rcases hsplit with ⟨h5, rfl⟩ | ⟨e, h5, h6⟩
            · rw [h5]
              exact .plain n o hcalls
            · rw [h5]
              refine .joined n p o e hcalls h6 (.inr ⟨?_, (prefix_head (m := []) hpp).2.1⟩)
              exact (prefix_head (m := []) (hpp.trans g2)).2.1
      · -- one dash
        match w, hh', h1, hd with
        | [a, b], h1, h2, h3 =>
          simp at h1
          subst h1
          have hb : b ≠ '-' := by simpa using h3
          have hno : optionTuples T ['-', b] = [] := by
            unfold optionTuples
            rw [if_neg h3, List.flatMap_eq_nil_iff]
            intro o ho
            rw [List.filterMap_eq_nil_iff]
            intro n hn
            have hn1 : n ≠ ['-', b] := by rintro rfl; exact hnamed o ⟨ho, hn⟩
            have hn2 : ¬ (['-', b] : Text).isPrefixOf n = true := by
              rw [List.isPrefixOf_iff_prefix]
              intro hpx
              rcases hT.shape n o ⟨ho, hn⟩ with ⟨x, rfl, -⟩ | ⟨x, r, rfl, -⟩
              · obtain ⟨t, ht⟩ := hpx
                simp at ht
                exact hn1 (by rw [ht.1])
              · obtain ⟨t, ht⟩ := hpx
                simp at ht
                exact hb ht.1
            simp only [List.take_succ_cons, List.take_zero]
            exact (if_neg hn1).trans (if_neg hn2)
          rw [hno]
          dsimp only
          have hnot : ¬ OptionLike T ['-', b] := by
            rintro (⟨n, o, v, g1, g2 | g2⟩ | ⟨n, m, o, v, g1, -, -, g2⟩ | ⟨c, o, g1, g2⟩)
            · rw [g2] at hnamed; exact hnamed o g1
            · exact hpn n v g2 (named_eq hT g1) o g1
            · obtain ⟨t, rfl⟩ := g1
              rcases g2 with g2 | g2 <;> simp at g2 <;> exact hb g2.1
            · have := g2.eq_of_length rfl
              rw [← this] at hnamed
              exact hnamed o g1
          by_cases hneg : (negativeNumber digit ['-', b] || List.contains ['-', b] ' ') = true
          · right; left
            rw [if_pos hneg]
            refine ⟨rfl, fun hne => .inr (.inr ⟨hne, hnot, ?_⟩)⟩
            rw [Bool.or_eq_true, negativeNumber_iff hdot] at hneg
            rcases hneg with h | h
            · exact .inl h
            · exact .inr (by simpa using h)
          · right; right; left
            rw [if_neg hneg]
            refine ⟨rfl, rfl, by simp, ?_⟩
            rintro (h | h)
            · exact hneg (by rw [(negativeNumber_iff hdot _).2 h]; rfl)
            · exact hneg (by rw [Bool.or_eq_true]; right; exact List.contains_iff_mem.2 h)
        | a :: b :: d :: v, h1, h2, h3 =>
          simp at h1
          subst h1
          have hb : b ≠ '-' := by simpa using h3
          rw [optionTuples_short hT hb]
          cases hs : lookupOpt T ['-', b] with
          | some o =>
            left
            refine ⟨_, rfl, .attached b d o v (lookup_named hs) rfl ?_⟩
            rintro rfl
            have hbe : b ≠ '=' := by
              rintro rfl
              exact named_eq hT (lookup_named hs) (by simp)
            exact hpn ['-', b] v rfl (by simp [Ne.symm hbe]) o (lookup_named hs)
          | none =>
            dsimp only
            have hnot : ¬ OptionLike T ('-' :: b :: d :: v) := by
              rintro (⟨n, o, e, g1, g2 | g2⟩ | ⟨n, m, o, e, g1, -, -, g2⟩ | ⟨c, o, g1, g2⟩)
              · rw [g2] at hnamed; exact hnamed o g1
              · exact hpn n e g2 (named_eq hT g1) o g1
              · obtain ⟨t, rfl⟩ := g1
                rcases g2 with g2 | g2 <;> simp at g2 <;> exact hb g2.1
              · obtain ⟨t, ht⟩ := g2
                simp at ht
                obtain ⟨rfl, -⟩ := ht
                exact (lookup_none hT).1 hs o g1
            by_cases hneg : (negativeNumber digit ('-' :: b :: d :: v) || List.contains ('-' :: b :: d :: v) ' ') = true
            · right; left
              rw [if_pos hneg]
              refine ⟨rfl, fun hne => .inr (.inr ⟨hne, hnot, ?_⟩)⟩
              rw [Bool.or_eq_true, negativeNumber_iff hdot] at hneg
              rcases hneg with h | h
              · exact .inl h
              · exact .inr (List.contains_iff_mem.1 h)
            · right; right; left
              rw [if_neg hneg]
              refine ⟨rfl, rfl, by simp, ?_⟩
              rintro (h | h)
              · exact hneg (by rw [(negativeNumber_iff hdot _).2 h]; rfl)
              · exact hneg (by rw [Bool.or_eq_true]; right; exact List.contains_iff_mem.2 h)

theorem reads_optionLike (hT : TableOk T) {w : Text} {t : Tok κ} (h : Reads T w t) : OptionLike T w ∧ w.head? = some '-' ∧ w ≠ ['-'] := by
  have hc : ∀ n o v, Calls T n o → (w = n ∨ w = n ++ '=' :: v) → OptionLike T w ∧ w.head? = some '-' ∧ w ≠ ['-'] := by
    intro n o v h hw
    cases h with
    | name _ h =>
      refine ⟨.inl ⟨n, o, v, h, hw⟩, ?_⟩
      rcases hT.shape n o h with ⟨c, rfl, -⟩ | ⟨c, r, rfl, -⟩ <;> rcases hw with rfl | rfl <;> exact ⟨rfl, by simp⟩
    | abbreviation m _ hn h hm only =>
      refine ⟨.inr (.inl ⟨n, m, o, v, hn, h, hm, hw⟩), ?_⟩
      obtain ⟨t, rfl⟩ := hn
      rcases hw with rfl | rfl <;> exact ⟨rfl, by simp⟩
  cases h with
  | plain n o h => exact hc w o [] h (.inl rfl)
  | joined n n' o v h hw hn => exact hc n' o v h (.inr hw)
  | attached c d o v h hw hd =>
    subst hw
    exact ⟨.inr (.inr ⟨c, o, h, ⟨d :: v, rfl⟩⟩), rfl, by simp⟩

/-- Values are read as values. -/
theorem parseOptional_value (hT : TableOk T) (hdot : digit '.' = none) {w : Text} (h : Value digit T w) :
    parseOptional digit T w = some (.arg w) ∧ w ≠ ['-', '-'] := by
  have hne : w ≠ ['-', '-'] := by
    rcases h with h | h | h
    · rintro rfl; simp at h
    · rintro rfl; simp at h
    · exact h.1
  refine ⟨?_, hne⟩
  have hnot : w.head? = some '-' → w ≠ ['-'] → ¬ OptionLike T w ∧ (Negative digit w ∨ ' ' ∈ w) := by
    intro h1 h2
    rcases h with h | h | h
    · exact absurd h1 h
    · exact absurd h h2
    · exact h.2
  rcases parseOptional_cases hT hdot w with ⟨t, h1, h2⟩ | h1 | ⟨-, h1, h2, h3⟩ | ⟨h1, h2⟩
  · obtain ⟨g1, g2, g3⟩ := reads_optionLike hT h2
    exact absurd g1 (hnot g2 g3).1
  · exact h1.1
  · exact absurd (hnot h1 h2).2 h3
  · have hd : w.head? = some '-' ∧ w ≠ ['-'] := by
      constructor
      · by_contra hh
        unfold parseOptional at h1
        rw [if_pos hh] at h1
        cases h1
      · rintro rfl
        unfold parseOptional at h1
        rw [if_neg (by simp)] at h1
        have : lookupOpt T ['-'] = none := by
          rw [lookup_none hT]
          intro o ho
          rcases hT.shape _ _ ho with ⟨c, h, -⟩ | ⟨c, r, h, -⟩ <;> simp at h
        rw [this] at h1
        simp at h1
    exact absurd h2 (hnot hd.1 hd.2).1

theorem parseOptional_calls (hT : TableOk T) {w : Text} {o : Opt κ} (h : Calls T w o) :
    ∃ n, parseOptional digit T w = some (.opt o n false none) := by
  cases h with
  | name _ h =>
    refine ⟨w, ?_⟩
    unfold parseOptional
    rw [if_neg (by simp [named_head hT h]), (lookup_iff hT).2 h]
  | abbreviation m _ hn h hm only =>
    unfold parseOptional
    obtain ⟨h1, h2, h3⟩ := prefix_head (m := []) hn
    rw [if_neg (by simp [h1])]
    cases hl : lookupOpt T w with
    | some o' =>
      have := only w o' (lookup_named hl) List.prefix_rfl
      subst this
      rw [named_unique hT (lookup_named hl) h]
      exact ⟨_, rfl⟩
    | none =>
      have he : partitionEq w = none := partitionEq_none.2 fun hc => named_eq hT h (hm.subset hc)
      dsimp only
      rw [if_neg h3, he]
      simp only [Option.bind_none]
      rw [optionTuples_long h2, he]
      simp only [Option.elim]
      rw [(longMatches_single hT).2 ⟨h, hm, only⟩]
      exact ⟨_, rfl⟩

theorem parseOptional_joined (hT : TableOk T) {n' v : Text} {o : Opt κ} (h : Calls T n' o) :
    ∃ n, parseOptional digit T (n' ++ '=' :: v) = some (.opt o n true (some v)) ∧
      (n = n' ∨ (n[1]? = some '-' ∧ n'[1]? = some '-')) := by
  have hp : partitionEq (n' ++ '=' :: v) = some (n', v) := partitionEq_some.2 ⟨rfl, calls_eq hT h⟩
  have hl : lookupOpt T (n' ++ '=' :: v) = none := by
    rw [lookup_none hT]
    intro o' ho
    exact named_eq hT ho (by simp)
  cases h with
  | name _ h =>
    refine ⟨n', ?_, .inl rfl⟩
    unfold parseOptional
    have hlen : (n' ++ '=' :: v).length ≠ 1 ∧ (n' ++ '=' :: v).head? = some '-' := by
      rcases hT.shape n' o h with ⟨c, rfl, -⟩ | ⟨c, r, rfl, -⟩ <;> simp
    rw [if_neg (by simp [hlen.2]), hl]
    dsimp only
    rw [if_neg hlen.1, hp]
    simp [(lookup_iff hT).2 h]
  | abbreviation m _ hn h hm only =>
    have hn' : ['-', '-'] <+: n' ++ '=' :: v := hn.trans (List.prefix_append _ _)
    obtain ⟨h1, h2, h3⟩ := prefix_head (m := []) hn'
    unfold parseOptional
    rw [if_neg (by simp [h1]), hl]
    dsimp only
    rw [if_neg h3, hp]
    cases hq : lookupOpt T n' with
    | some o' =>
      have := only n' o' (lookup_named hq) List.prefix_rfl
      subst this
      refine ⟨n', ?_, .inl rfl⟩
      simp [(lookup_iff hT).2 h]
    | none =>
      simp only [Option.bind_some, hq, Option.map_none]
      rw [optionTuples_long h2, hp]
      simp only [Option.elim]
      rw [(longMatches_single hT).2 ⟨h, hm, only⟩]
      exact ⟨m, rfl, .inr ⟨(prefix_head (m := []) (hn.trans hm)).2.1, (prefix_head (m := []) hn).2.1⟩⟩

theorem parseOptional_attached (hT : TableOk T) {c d : Char} {v : Text} {o : Opt κ} (h : Named T ['-', c] o) (hd : d ≠ '=') :
    parseOptional digit T ('-' :: c :: d :: v) = some (.opt o ['-', c] false (some (d :: v))) := by
  have hc : c ≠ '-' ∧ c ≠ '=' := by
    rcases hT.shape _ _ h with ⟨x, g1, g2, g3⟩ | ⟨x, r, g1, -⟩
    · simp at g1; subst g1; exact ⟨g2, g3⟩
    · simp at g1
  have hno : ∀ n o', Named T n o' → (n = '-' :: c :: d :: v ∨ ∃ e, '-' :: c :: d :: v = n ++ '=' :: e) → False := by
    intro n o' hn hw
    rcases hT.shape _ _ hn with ⟨x, rfl, -⟩ | ⟨x, r, rfl, -⟩
    · rcases hw with hw | ⟨e, hw⟩ <;> simp at hw
      exact hd hw.2.1
    · rcases hw with hw | ⟨e, hw⟩ <;> simp at hw
      · exact hc.1 hw.1.symm
      · exact hc.1 hw.1
  unfold parseOptional
  have hl : lookupOpt T ('-' :: c :: d :: v) = none := (lookup_none hT).2 fun o' ho => hno _ o' ho (.inl rfl)
  rw [if_neg (by simp), hl]
  dsimp only
  rw [if_neg (by simp)]
  have hp : ((partitionEq ('-' :: c :: d :: v)).bind fun p => (lookupOpt T p.1).map fun o => (o, p)) = none := by
    cases hq : partitionEq ('-' :: c :: d :: v) with
    | none => rfl
    | some q =>
      obtain ⟨a, b⟩ := q
      obtain ⟨g1, -⟩ := partitionEq_some.1 hq
      have : lookupOpt T a = none := (lookup_none hT).2 fun o' ho => hno _ o' ho (.inr ⟨b, g1⟩)
      simp [this]
  rw [hp]
  dsimp only
  rw [optionTuples_short hT hc.1, (lookup_iff hT).2 h]

/-! ### The values of an option -/

/-- No value comes first. -/
def NoArg (rest : List (Tok κ)) : Prop := ∀ t r, rest ≠ .arg t :: r

theorem leadingArgs_eq (rest : List (Tok κ)) : rest = (leadingArgs rest).map .arg ++ rest.drop (leadingArgs rest).length := by
  induction rest with
  | nil => rfl
  | cons t r ih =>
    cases t with
    | arg x => simpa [leadingArgs] using ih
    | dashes => rfl
    | unknown x => rfl
    | opt o n e x => rfl

theorem leadingArgs_append {vs : List Text} {rest : List (Tok κ)} (h : NoArg rest) :
    leadingArgs (vs.map .arg ++ rest) = vs := by
  induction vs with
  | nil =>
    cases rest with
    | nil => rfl
    | cons t r =>
      cases t with
      | arg x => exact absurd rfl (h x r)
      | dashes => rfl
      | unknown x => rfl
      | opt o n e x => rfl
  | cons v vs ih => simp [leadingArgs, ih]

theorem matchArgs_some {n : Nargs} {rest rest' : List (Tok κ)} {vs : List Text} (h : matchArgs n rest = some (vs, rest')) :
    Takes n vs ∧ rest = vs.map .arg ++ rest' := by
  unfold matchArgs at h
  split at h
  · cases h; exact ⟨rfl, rfl⟩
  · split at h
    · cases h; exact ⟨⟨_, rfl⟩, rfl⟩
    · cases h
  · split at h
    · cases h
    · rename_i hne
      cases h
      exact ⟨show leadingArgs rest ≠ [] by simpa using hne, leadingArgs_eq rest⟩

theorem matchArgs_of {n : Nargs} {rest : List (Tok κ)} {vs : List Text} (ht : Takes n vs) (h : NoArg rest) :
    matchArgs n (vs.map .arg ++ rest) = some (vs, rest) := by
  cases n with
  | zero => cases ht; rfl
  | one => obtain ⟨v, rfl⟩ := ht; rfl
  | many =>
    simp only [matchArgs, leadingArgs_append h]
    have ht' : vs ≠ [] := ht
    rw [if_neg (by simpa using ht')]
    simp

/-! ### One option -/

theorem consumeExplicit_some (hT : TableOk T) {rest rest' : List (Tok κ)} (k : Nat) : ∀ (e : Text), e.length ≤ k → ∀ (o : Opt κ) (c : Char)
    (eq : Bool) (acts : List (κ × List Text)), Named T ['-', c] o → (eq = false → ∃ d v, e = d :: v ∧ d ≠ '=') →
    consumeExplicit T rest o true eq e = some (acts, [], rest') →
    ∃ vs, Occurs T ('-' :: c :: (if eq then '=' :: e else e)) vs acts ∧ rest = vs.map .arg ++ rest' := by
  induction k with
  | zero =>
    intro e he o c eq acts hn hq h
    obtain rfl : e = [] := by simpa using he
    have : eq = true := by
      cases eq with
      | true => rfl
      | false => obtain ⟨d, v, h, -⟩ := hq rfl; cases h
    subst this
    unfold consumeExplicit at h
    split at h
    · cases h
    · rename_i hz
      cases h
      exact ⟨[], .joined ['-', c] o [] (.name _ _ hn) hz, rfl⟩
  | succ k ih =>
    intro e he o c eq acts hn hq h
    by_cases hz : o.nargs = .zero
    · cases e with
      | nil => simp [consumeExplicit, hz] at h
      | cons d e =>
        unfold consumeExplicit at h
        rw [if_pos hz] at h
        split at h
        · cases h
        · rename_i hcond
          simp only [Bool.not_true, Bool.false_or, Bool.or_eq_true, decide_eq_true_eq, not_or, Bool.not_eq_true] at hcond
          obtain ⟨rfl, hd⟩ := hcond
          obtain ⟨d', v', hdv, hd'⟩ := hq rfl
          cases hdv
          cases hl : lookupOpt T ['-', d] with
          | none => rw [hl] at h; simp at h
          | some o' =>
            rw [hl] at h
            dsimp only at h
            have hn' := lookup_named hl
            have hfin : ∀ vs acts', Occurs T ('-' :: d :: e) vs acts' → Occurs T ('-' :: c :: d :: e) vs ((o.key, []) :: acts') :=
              fun vs acts' ho => .flag c d o e vs acts' hn hz hd' hd ho
            match e, he, h, hfin with
            | [], he, h, hfin =>
              simp only [Option.map_eq_some_iff, Prod.mk.injEq] at h
              obtain ⟨⟨vs, r⟩, h1, rfl, -, rfl⟩ := h
              obtain ⟨h2, h3⟩ := matchArgs_some h1
              exact ⟨vs, hfin _ _ (.apart _ o' vs (.name _ _ hn') h2), h3⟩
            | '=' :: e', he, h, hfin =>
              simp only [Option.map_eq_some_iff, Prod.mk.injEq] at h
              obtain ⟨⟨a, b, r⟩, h1, rfl, rfl, rfl⟩ := h
              obtain ⟨vs, g1, g2⟩ := ih e' (by simp at he; omega) o' d true a hn' nofun h1
              exact ⟨vs, hfin _ _ g1, g2⟩
            | x :: e', he, h, hfin =>
              by_cases hx : x = '='
              · subst hx
                simp only [Option.map_eq_some_iff, Prod.mk.injEq] at h
                obtain ⟨⟨a, b, r⟩, h1, rfl, rfl, rfl⟩ := h
                obtain ⟨vs, g1, g2⟩ := ih e' (by simp at he; omega) o' d true a hn' nofun h1
                exact ⟨vs, hfin _ _ g1, g2⟩
              · have h' : (consumeExplicit T rest o' true false (x :: e')).map (fun p => ((o.key, []) :: p.1, p.2)) =
                    some (acts, [], rest') := by
                  split at h
                  · rename_i heq; cases heq
                  · rename_i heq; cases heq; exact absurd rfl hx
                  · rename_i heq; cases heq; exact h
                simp only [Option.map_eq_some_iff, Prod.mk.injEq] at h'
                obtain ⟨⟨a, b, r⟩, h1, rfl, rfl, rfl⟩ := h'
                obtain ⟨vs, g1, g2⟩ := ih (x :: e') (by simpa using he) o' d false a hn' (fun _ => ⟨x, e', rfl, hx⟩) h1
                exact ⟨vs, hfin _ _ g1, g2⟩
    · have hr : consumeExplicit T rest o true eq e = some ([(o.key, [e])], [], rest) := by
        cases e <;> simp [consumeExplicit, hz]
      rw [hr] at h
      cases h
      refine ⟨[], ?_, rfl⟩
      cases eq with
      | true => exact .joined ['-', c] o e (.name _ _ hn) hz
      | false =>
        obtain ⟨d, v, rfl, hd⟩ := hq rfl
        exact .attached c d o v hn hz hd

/-- An option is read from the words of an occurrence. -/
theorem consumeOptional_some (hT : TableOk T) {rest rest' : List (Tok κ)} {w n : Text} {o : Opt κ} {eq : Bool} {ex : Option Text}
    {acts : List (κ × List Text)} (hr : Reads T w (.opt o n eq ex))
    (h : consumeOptional T rest o n eq ex = some (acts, [], rest')) :
    ∃ vs, Occurs T w vs acts ∧ rest = vs.map .arg ++ rest' := by
  cases hr with
  | plain n o hc =>
    simp only [consumeOptional, Option.map_eq_some_iff, Prod.mk.injEq] at h
    obtain ⟨⟨vs, r⟩, h1, rfl, -, rfl⟩ := h
    obtain ⟨h2, h3⟩ := matchArgs_some h1
    exact ⟨vs, .apart w o vs hc h2, h3⟩
  | joined n n' o v hc hw hn =>
    subst hw
    simp only [consumeOptional] at h
    have key : ∀ single, consumeExplicit T rest o single true v = some (acts, [], rest') →
        o.nargs ≠ .zero ∧ acts = [(o.key, [v])] ∧ rest' = rest := by
      intro single h
      cases v <;> unfold consumeExplicit at h
      · split at h
        · cases h
        · rename_i hz; cases h; exact ⟨hz, rfl, rfl⟩
      · split at h
        · simp at h
        · rename_i hz; cases h; exact ⟨hz, rfl, rfl⟩
    obtain ⟨h1, rfl, rfl⟩ := key _ h
    exact ⟨[], .joined n' o v hc h1, rfl⟩
  | attached c d o v hn hw hd =>
    subst hw
    simp only [consumeOptional] at h
    have hc : decide ((['-', c] : Text)[1]? ≠ some '-') = true := by
      rcases hT.shape _ _ hn with ⟨x, g1, g2, g3⟩ | ⟨x, r, g1, -⟩
      · simp at g1; subst g1; simpa using g2
      · simp at g1
    rw [hc] at h
    exact consumeExplicit_some hT _ (d :: v) (Nat.le_refl _) o c false acts hn (fun _ => ⟨d, v, rfl, hd⟩) h

/-- Flags and an option written together. -/
theorem consumeExplicit_of (hT : TableOk T) {rest : List (Tok κ)} (hrest : NoArg rest) {w : Text} {vs : List Text}
    {acts : List (κ × List Text)} (h : Occurs T w vs acts) : ∀ (c : Char) (o : Opt κ), c ≠ '-' → Named T ['-', c] o →
    (∀ d v, w = '-' :: c :: d :: v → d ≠ '=' →
      consumeExplicit T (vs.map .arg ++ rest) o true false (d :: v) = some (acts, [], rest)) ∧
    (∀ v, w = '-' :: c :: '=' :: v →
      consumeExplicit T (vs.map .arg ++ rest) o true true v = some (acts, [], rest)) ∧
    (w = ['-', c] → matchArgs o.nargs (vs.map .arg ++ rest) = some (vs, rest) ∧ acts = [(o.key, vs)]) := by
  induction h with
  | apart w o' vs h ht =>
    intro c o hc hn
    have hw1 : ∀ t, w = '-' :: c :: t → Named T w o' ∧ t = [] := by
      intro t hw
      have hnm : Named T w o' := by
        cases h with
        | name _ h => exact h
        | abbreviation m _ hn' h hm only =>
          obtain ⟨u, hu⟩ := hn'
          rw [hw] at hu
          simp at hu
          exact absurd hu.1.symm hc
      refine ⟨hnm, ?_⟩
      rcases hT.shape _ _ hnm with ⟨x, g1, -⟩ | ⟨x, r, g1, -⟩
      · rw [hw] at g1; simp at g1; exact g1.2
      · rw [hw] at g1; simp at g1; exact absurd g1.1 hc
    refine ⟨fun d v hw _ => ?_, fun v hw => ?_, fun hw => ?_⟩
    · cases (hw1 _ hw).2
    · cases (hw1 _ hw).2
    · obtain ⟨h1, -⟩ := hw1 [] hw
      rw [hw] at h1
      obtain rfl := named_unique hT h1 hn
      exact ⟨matchArgs_of ht hrest, rfl⟩
  | joined n o' v' h hz =>
    intro c o hc hn
    have hn2 : ∀ d v, n ++ '=' :: v' = '-' :: c :: d :: v → n = ['-', c] ∧ d = '=' ∧ v = v' ∧ o = o' := by
      intro d v hw
      have hnm : Named T n o' := by
        cases h with
        | name _ h => exact h
        | abbreviation m _ hn' h hm only =>
          obtain ⟨u, hu⟩ := hn'
          rw [← hu] at hw
          simp at hw
          exact absurd hw.1.symm hc
      rcases hT.shape _ _ hnm with ⟨x, rfl, -⟩ | ⟨x, r, rfl, -⟩
      · simp at hw
        obtain ⟨rfl, rfl, rfl⟩ := hw
        exact ⟨rfl, rfl, rfl, named_unique hT hn hnm⟩
      · simp at hw
        exact absurd hw.1.symm hc
    refine ⟨fun d v hw hd => absurd (hn2 d v hw).2.1 hd, fun v hw => ?_, fun hw => ?_⟩
    · obtain ⟨-, -, rfl, rfl⟩ := hn2 '=' v hw
      cases v <;> simp [consumeExplicit, hz]
    · exfalso
      have hl := congrArg List.length hw
      cases h with
      | name _ h =>
        rcases hT.shape _ _ h with ⟨x, rfl, -⟩ | ⟨x, r, rfl, -⟩ <;> simp at hl
      | abbreviation m _ hn' h hm only =>
        obtain ⟨u, rfl⟩ := hn'
        simp at hl
  | attached c' d' o' v' h hz hd =>
    intro c o hc hn
    refine ⟨fun d v hw hd => ?_, fun v hw => ?_, fun hw => by simp at hw⟩
    · simp at hw
      obtain ⟨rfl, rfl, rfl⟩ := hw
      obtain rfl := named_unique hT h hn
      simp [consumeExplicit, hz]
    · simp at hw
      exact absurd hw.2.1 hd
  | flag c' d' o' r vs acts h hz hd hd' ho ih =>
    intro c o hc hn
    refine ⟨fun d v hw hd2 => ?_, fun v hw => ?_, fun hw => by simp at hw⟩
    · simp at hw
      obtain ⟨rfl, rfl, rfl⟩ := hw
      obtain rfl := named_unique hT h hn
      unfold consumeExplicit
      rw [if_pos hz, if_neg (by simp [hd'])]
      obtain ⟨o'', hn''⟩ : ∃ o'', Named T ['-', d'] o'' := by
        generalize hw' : '-' :: d' :: r = w' at ho
        cases ho with
        | apart _ o'' _ h _ =>
          cases h with
          | name _ h =>
            rcases hT.shape _ _ h with ⟨x, rfl, -⟩ | ⟨x, t, rfl, -⟩
            · simp at hw'; obtain ⟨rfl, rfl⟩ := hw'; exact ⟨o'', h⟩
            · simp at hw'; exact absurd hw'.1 hd'
          | abbreviation m _ hn' h hm only =>
            obtain ⟨u, rfl⟩ := hn'
            simp at hw'; exact absurd hw'.1 hd'
        | joined n o'' _ h _ =>
          cases h with
          | name _ h =>
            rcases hT.shape _ _ h with ⟨x, rfl, -⟩ | ⟨x, t, rfl, -⟩
            · simp at hw'; obtain ⟨rfl, rfl⟩ := hw'; exact ⟨o'', h⟩
            · simp at hw'; exact absurd hw'.1 hd'
          | abbreviation m _ hn' h hm only =>
            obtain ⟨u, rfl⟩ := hn'
            simp at hw'; exact absurd hw'.1 hd'
        | attached _ _ o'' _ h => simp at hw'; obtain ⟨rfl, -⟩ := hw'; exact ⟨o'', h⟩
        | flag _ _ o'' _ _ _ h => simp at hw'; obtain ⟨rfl, -⟩ := hw'; exact ⟨o'', h⟩
      rw [(lookup_iff hT).2 hn'']
      dsimp only
      obtain ⟨i1, i2, i3⟩ := ih d' o'' hd' hn''
      match r, i1, i2, i3 with
      | [], i1, i2, i3 =>
        obtain ⟨g1, g2⟩ := i3 rfl
        simp only [g1, Option.map_some, g2]
      | '=' :: e, i1, i2, i3 =>
        simp only [i2 e rfl, Option.map_some]
      | x :: e, i1, i2, i3 =>
        by_cases hx : x = '='
        · subst hx
          simp only [i2 e rfl, Option.map_some]
        · split
          · rename_i heq; cases heq
          · rename_i heq; cases heq; exact absurd rfl hx
          · rename_i heq; cases heq
            simp only [i1 x e rfl hx, Option.map_some]
    · simp at hw
      exact absurd hw.2.1 hd

/-- The words of an occurrence are read as the option. -/
theorem consumeOptional_of (hT : TableOk T) {rest : List (Tok κ)} (hrest : NoArg rest) {w : Text} {vs : List Text}
    {acts : List (κ × List Text)} (h : Occurs T w vs acts) :
    ∃ o n eq ex, parseOptional digit T w = some (.opt o n eq ex) ∧
      consumeOptional T (vs.map .arg ++ rest) o n eq ex = some (acts, [], rest) := by
  have hshort : ∀ c o, Named T ['-', c] o → c ≠ '-' ∧ decide ((['-', c] : Text)[1]? ≠ some '-') = true := by
    intro c o hn
    rcases hT.shape _ _ hn with ⟨x, g1, g2, g3⟩ | ⟨x, r, g1, -⟩
    · simp at g1; subst g1; exact ⟨g2, by simpa using g2⟩
    · simp at g1
  cases h with
  | apart _ o _ h ht =>
    obtain ⟨n, hn⟩ := parseOptional_calls (digit := digit) hT h
    refine ⟨o, n, false, none, hn, ?_⟩
    simp only [consumeOptional, matchArgs_of ht hrest, Option.map_some]
  | joined n' o v h hz =>
    obtain ⟨n, hn, -⟩ := parseOptional_joined (digit := digit) (v := v) hT h
    refine ⟨o, n, true, some v, hn, ?_⟩
    simp only [consumeOptional]
    cases v <;> simp [consumeExplicit, hz]
  | attached c d o v h hz hd =>
    refine ⟨o, ['-', c], false, some (d :: v), parseOptional_attached hT h hd, ?_⟩
    simp only [consumeOptional]
    simp [consumeExplicit, hz]
  | flag c d o r _ acts h hz hd hd' ho =>
    refine ⟨o, ['-', c], false, some (d :: r), parseOptional_attached hT h hd, ?_⟩
    simp only [consumeOptional]
    rw [(hshort c o h).2]
    exact (consumeExplicit_of hT hrest (.flag c d o r vs acts h hz hd hd' ho) c o (hshort c o h).1 h).1 d r rfl hd

/-! ### The whole line -/

theorem classify_split {vs : List Text} {ws : List Text} {r : List (Tok κ)} (hT : TableOk T) (hdot : digit '.' = none)
    (h : classify digit T ws = some (vs.map .arg ++ r)) :
    ∃ ws', ws = vs ++ ws' ∧ (∀ v ∈ vs, Value digit T v) ∧ classify digit T ws' = some r := by
  induction vs generalizing ws with
  | nil => exact ⟨ws, rfl, by simp, h⟩
  | cons v vs ih =>
    cases ws with
    | nil => simp [classify] at h
    | cons w ws =>
      unfold classify at h
      split at h
      · simp at h
      · rename_i hne
        simp only [Option.bind_eq_some_iff, Option.map_eq_some_iff] at h
        obtain ⟨t, h1, ts, h2, h3⟩ := h
        simp only [List.map_cons, List.cons_append, List.cons.injEq] at h3
        obtain ⟨rfl, rfl⟩ := h3
        obtain ⟨ws', rfl, h4, h5⟩ := ih h2
        have hv : v = w ∧ Value digit T v := by
          rcases parseOptional_cases hT hdot w with ⟨t, g1, g2⟩ | ⟨g1, g2⟩ | ⟨g1, -⟩ | ⟨g1, -⟩
          · rw [h1] at g1; cases g1; cases g2
          · rw [h1] at g1; cases g1; exact ⟨rfl, g2 hne⟩
          · rw [h1] at g1; cases g1
          · rw [h1] at g1; cases g1
        obtain ⟨rfl, hv⟩ := hv
        refine ⟨ws', rfl, ?_, h5⟩
        intro x hx
        rcases List.mem_cons.1 hx with rfl | hx
        · exact hv
        · exact h4 x hx

theorem classify_append {vs ws : List Text} {r : List (Tok κ)} (hT : TableOk T) (hdot : digit '.' = none)
    (hv : ∀ v ∈ vs, Value digit T v) (h : classify digit T ws = some r) :
    classify digit T (vs ++ ws) = some (vs.map .arg ++ r) := by
  induction vs with
  | nil => exact h
  | cons v vs ih =>
    obtain ⟨h1, h2⟩ := parseOptional_value hT hdot (hv v (by simp))
    rw [List.cons_append]
    unfold classify
    rw [if_neg h2, h1, ih fun x hx => hv x (List.mem_cons_of_mem _ hx)]
    rfl

theorem consume_line (hT : TableOk T) (hdot : digit '.' = none) (k : Nat) : ∀ (args : List Text) (toks : List (Tok κ))
    (acts : List (κ × List Text)), classify digit T args = some toks → consume T k toks = (acts, some []) →
    Line digit T args acts := by
  induction k with
  | zero => intro args toks acts _ h; simp [consume] at h
  | succ k ih =>
    intro args toks acts hc h
    cases args with
    | nil =>
      simp only [classify, Option.some.injEq] at hc
      subst hc
      simp only [consume, Prod.mk.injEq, and_true] at h
      subst h
      exact .nil
    | cons w ws =>
      unfold classify at hc
      split at hc
      · cases hc
        simp [consume] at h
      · rename_i hne
        simp only [Option.bind_eq_some_iff, Option.map_eq_some_iff] at hc
        obtain ⟨t, h1, ts, h2, rfl⟩ := hc
        rcases parseOptional_cases hT hdot w with ⟨t', g1, g2⟩ | ⟨g1, g2⟩ | ⟨g1, -⟩ | ⟨g1, -⟩
        · rw [h1] at g1; cases g1
          match t, g2 with
          | .opt o n eq ex, g2 =>
            simp only [consume] at h
            split at h
            · simp at h
            · rename_i acts1 extras r' he
              simp only [Prod.mk.injEq, Option.map_eq_some_iff] at h
              obtain ⟨rfl, ex', h3, h4⟩ := h
              obtain ⟨rfl, rfl⟩ := List.append_eq_nil_iff.1 h4
              obtain ⟨vs, h5, h6⟩ := consumeOptional_some hT g2 he
              subst h6
              obtain ⟨ws', rfl, h7, h8⟩ := classify_split hT hdot h2
              refine .cons w vs ws' acts1 _ h5 h7 hne (ih ws' r' _ h8 ?_)
              rw [← h3]
        · rw [h1] at g1; cases g1; simp [consume] at h
        · rw [h1] at g1; cases g1; simp [consume] at h
        · rw [h1] at g1; cases g1

theorem line_consume (hT : TableOk T) (hdot : digit '.' = none) {args : List Text} {acts : List (κ × List Text)}
    (h : Line digit T args acts) : ∃ toks, classify digit T args = some toks ∧ NoArg toks ∧
      ∀ k, args.length < k → consume T k toks = (acts, some []) := by
  induction h with
  | nil =>
    refine ⟨[], rfl, nofun, fun k hk => ?_⟩
    cases k with
    | zero => simp at hk
    | succ k => rfl
  | cons w vs ws acts acts' h hv hw rest ih =>
    obtain ⟨toks, h1, h2, h3⟩ := ih
    obtain ⟨o, n, eq, ex, h4, h5⟩ := consumeOptional_of (digit := digit) hT h2 h
    refine ⟨.opt o n eq ex :: (vs.map .arg ++ toks), ?_, nofun, fun k hk => ?_⟩
    · unfold classify
      rw [if_neg hw, h4, classify_append hT hdot hv h1]
      rfl
    · cases k with
      | zero => simp at hk
      | succ k =>
        simp only [consume, h5]
        rw [h3 k (by simp at hk; omega)]
        simp

/-- The parser accepts exactly the lines of the specification and reads them as specified. -/
theorem parseLine_iff (hT : TableOk T) (hdot : digit '.' = none) (args : List Text) (acts : List (κ × List Text)) :
    parseLine digit T args = (acts, some []) ↔ Line digit T args acts := by
  unfold parseLine
  constructor
  · intro h
    split at h
    · simp at h
    · rename_i toks hc
      exact consume_line hT hdot _ args toks acts hc h
  · intro h
    obtain ⟨toks, h1, -, h2⟩ := line_consume hT hdot h
    rw [h1]
    exact h2 _ (by omega)

end TD
