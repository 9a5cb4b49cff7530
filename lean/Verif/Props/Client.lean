import Verif.Spec.Client
import Verif.Lemmas.Text
import Verif.Lemmas.Results
import Verif.Props.Runs
import Verif.Props.Supervised
/-!
# C48-C51: the client
-/

namespace TD
open Spec

/-! ### Matching -/

theorem isPrefixOf?_eq {a s r : Text} : a.isPrefixOf? s = some r ↔ s = a ++ r := by
  induction a generalizing s with
  | nil => cases s <;> simp [List.isPrefixOf?, eq_comm]
  | cons c a ih =>
    cases s with
    | nil => simp [List.isPrefixOf?]
    | cons d s =>
      simp only [List.isPrefixOf?]
      by_cases h : c = d
      · subst h; simp [ih]
      · have : (c == d) = false := by simpa using h
        simp [this]; intro h'; exact absurd h'.symm h

theorem reMatch_lit (t : Text) (r : List ReItem) (s : Text) (g : Groups) :
    reMatch (.lit t :: r) (t ++ s) g = reMatch r s g := by
  rw [reMatch, (isPrefixOf?_eq (a := t) (s := t ++ s) (r := s)).2 rfl]

theorem reMatch_lit_some {t : Text} {r : List ReItem} {s : Text} {g g' : Groups}
    (h : reMatch (.lit t :: r) s g = some g') : ∃ s', s = t ++ s' ∧ reMatch r s' g = some g' := by
  rw [reMatch] at h
  cases hp : t.isPrefixOf? s with
  | none => rw [hp] at h; cases h
  | some s' => rw [hp] at h; exact ⟨s', isPrefixOf?_eq.1 hp, h⟩

theorem reMatch_plus_some {cls : Char → Bool} {n : Nat} {r : List ReItem} {s : Text} {g g' : Groups}
    (h : reMatch (.plus cls n :: r) s g = some g') :
    ∃ a b, s = a ++ b ∧ a ≠ [] ∧ (∀ c ∈ a, cls c = true) ∧ reMatch r b (g ++ [(n, a)]) = some g' := by
  rw [reMatch] at h
  obtain ⟨k, hk, h⟩ := List.exists_of_findSome?_eq_some h
  simp only [List.mem_reverse, List.mem_range'_1] at hk
  refine ⟨s.take k, s.drop k, (List.take_append_drop k s).symm, ?_, ?_, h⟩
  · intro h0
    have hle : (s.takeWhile cls).length ≤ s.length := (List.takeWhile_prefix cls).length_le
    have := congrArg List.length h0
    simp at this
    rcases this with h | h
    · omega
    · subst h; simp at hk; omega
  · intro c hc
    have : s.take k <+: s.takeWhile cls := by
      rw [List.prefix_iff_eq_take]
      have hle : (s.takeWhile cls).length ≤ s.length := (List.takeWhile_prefix cls).length_le
      rw [List.length_take, Nat.min_eq_left (by omega)]
      have hp := List.prefix_iff_eq_take.1 (List.takeWhile_prefix (l := s) cls)
      rw [hp, List.take_take, Nat.min_eq_left (by omega)]
    exact List.mem_takeWhile_imp (this.subset hc)

/-- If the repetition ends where the class ends, the longest match is tried first. -/
theorem reMatch_plus {cls : Char → Bool} {n : Nat} {r : List ReItem} {a b : Text} {g g' : Groups}
    (ha : a ≠ []) (hc : ∀ c ∈ a, cls c = true) (hb : ∀ c ∈ b.head?, cls c = false)
    (h : reMatch r b (g ++ [(n, a)]) = some g') :
    reMatch (.plus cls n :: r) (a ++ b) g = some g' := by
  have htw : (a ++ b).takeWhile cls = a := by
    rw [List.takeWhile_append_of_pos hc]
    cases b with
    | nil => simp
    | cons c b => simp [hb c (by simp)]
  rw [reMatch, htw]
  have hlen : 0 < a.length := List.length_pos_iff.2 ha
  obtain ⟨m, hm⟩ : ∃ m, a.length = m + 1 := ⟨a.length - 1, by omega⟩
  rw [hm, List.range'_1_concat, List.reverse_append]
  simp only [List.reverse_cons, List.reverse_nil, List.nil_append, List.singleton_append,
    List.findSome?_cons]
  have e : 1 + m = a.length := by omega
  rw [e, List.drop_left, List.take_left, h]

theorem reMatch_eos {r : List ReItem} {s : Text} {g : Groups} (h : OptNewline s) :
    reMatch (.eos :: r) s g = reMatch r s g := by
  rw [reMatch]; exact if_pos h

theorem reMatch_eos_some {r : List ReItem} {s : Text} {g g' : Groups}
    (h : reMatch (.eos :: r) s g = some g') : OptNewline s ∧ reMatch r s g = some g' := by
  rw [reMatch] at h
  split at h
  · rename_i h'; exact ⟨h', h⟩
  · cases h

theorem reMatch_nil {s : Text} {g : Groups} : reMatch [] s g = some g := by rw [reMatch]

theorem reMatch_opt_some {k : Nat} {r : List ReItem} {s : Text} {g g' : Groups}
    (h : reMatch (.opt k :: r) s g = some g') :
    reMatch r s g = some g' ∨ (reMatch r s g = none ∧ reMatch (r.drop k) s g = some g') := by
  rw [reMatch] at h
  cases hr : reMatch r s g with
  | none => rw [hr] at h; exact Or.inr ⟨rfl, h⟩
  | some x => rw [hr] at h; exact Or.inl h

section
variable (digit : Char → Option Nat)

theorem numeral_iff {ds : Text} {n : Nat} :
    Numeral digit ds n ↔ ds ≠ [] ∧ (∀ c ∈ ds, (digit c).isSome = true) ∧ readInt digit ds = n := by
  constructor
  · intro h
    induction h with
    | one c d h => simp [readInt, h]
    | more t n c d _ h ih =>
      obtain ⟨_, i2, i3⟩ := ih
      refine ⟨by simp, ?_, ?_⟩
      · intro x hx
        rcases List.mem_append.1 hx with hx | hx
        · exact i2 x hx
        · rw [List.mem_singleton.1 hx, h]; rfl
      · unfold readInt at i3 ⊢
        rw [List.foldl_append, i3]; simp [h]
  · rintro ⟨h1, h2, h3⟩
    induction ds using List.reverseRecOn generalizing n with
    | nil => exact absurd rfl h1
    | append_singleton t c ih =>
      obtain ⟨d, hd⟩ := Option.isSome_iff_exists.1 (h2 c (by simp))
      by_cases ht : t = []
      · subst ht
        have : n = d := by rw [← h3]; simp [readInt, hd]
        subst this
        exact .one c _ hd
      · have := ih (n := readInt digit t) ht (fun x hx => h2 x (by simp [hx])) rfl
        have e : n = 10 * readInt digit t + d := by
          rw [← h3]; simp [readInt, List.foldl_append, hd]
        rw [e]
        exact .more t _ c d this hd

variable (hnl : digit '\n' = none)

theorem head_newline {s : Text} (h : OptNewline s) : digit '\n' = none →
    ∀ c ∈ s.head?, (fun c => (digit c).isSome) c = false := by
  intro hnl c hc
  rcases h with rfl | rfl
  · simp at hc
  · simp only [List.head?_cons, Option.mem_def, Option.some.injEq] at hc
    subst hc; simp [hnl]

include hnl in
theorem fixed_match {ds nl : Text} {n : Nat} (h : Numeral digit ds n) (hn : OptNewline nl) :
    reMatch (fixedRegex digit) ("fixed-".toList ++ ds ++ nl) [] = some [(0, ds)] := by
  obtain ⟨h1, h2, -⟩ := (numeral_iff digit).1 h
  unfold fixedRegex
  rw [List.append_assoc, reMatch_lit]
  apply reMatch_plus h1 h2 (head_newline digit hn hnl)
  rw [reMatch_eos hn, reMatch_nil]; rfl

theorem fixed_match_some {s : Text} {g : Groups} (h : reMatch (fixedRegex digit) s [] = some g) :
    ∃ ds nl, s = "fixed-".toList ++ ds ++ nl ∧ OptNewline nl ∧ Numeral digit ds (readInt digit ds) ∧
      g = [(0, ds)] := by
  obtain ⟨s1, rfl, k1⟩ := reMatch_lit_some h
  obtain ⟨ds, nl, rfl, d1, d2, k2⟩ := reMatch_plus_some k1
  obtain ⟨hn, k3⟩ := reMatch_eos_some k2
  rw [reMatch_nil] at k3
  refine ⟨ds, nl, by simp, hn, (numeral_iff digit).2 ⟨d1, d2, rfl⟩, ?_⟩
  simpa using k3.symm

theorem conv_tail {a : Text} {r : List ReItem} {b : Text} {g g' : Groups}
    (h1 : '-' ∉ a) (h0 : a ≠ []) (h : reMatch r b (g ++ [(1, a)]) = some g')
    (hb : b.head? = some '-') :
    reMatch (.plus (fun c => c ≠ '-') 1 :: r) (a ++ b) g = some g' := by
  apply reMatch_plus h0 _ _ h
  · intro c hc
    have : c ≠ '-' := by rintro rfl; exact h1 hc
    simpa using this
  · intro c hc
    rw [hb] at hc; cases hc; simp

theorem conv_match {me th : Text} (m1 : me ≠ []) (m2 : '-' ∉ me) (t1 : th ≠ []) (t2 : '-' ∉ th) :
    reMatch (convergenceRegex digit) (me ++ "-convergence-".toList ++ th) [] =
      some [(1, me), (2, th)] := by
  unfold convergenceRegex
  rw [List.append_assoc]
  apply conv_tail m2 m1 _ rfl
  rw [reMatch_lit]
  suffices h : reMatch [.plus (fun c => c ≠ '-') 2, .opt 2, .lit "-limit-".toList,
      .plus (fun c => (digit c).isSome) 0, .eos] (th ++ []) ([] ++ [(1, me)]) =
      some [(1, me), (2, th)] by
    rw [List.append_nil] at h; exact h
  apply reMatch_plus t1
  · intro c hc
    have : c ≠ '-' := by rintro rfl; exact t2 hc
    simpa using this
  · simp
  · rw [reMatch]
    have : reMatch [.lit "-limit-".toList, .plus (fun c => (digit c).isSome) 0, .eos] []
        ([] ++ [(1, me)] ++ [(2, th)]) = none := by
      cases h : reMatch [.lit "-limit-".toList, .plus (fun c => (digit c).isSome) 0, .eos] []
        ([] ++ [(1, me)] ++ [(2, th)]) with
      | none => rfl
      | some g =>
        obtain ⟨s, hs, -⟩ := reMatch_lit_some h
        simp at hs
    rw [this]
    simp only [List.drop_succ_cons, List.drop_zero]
    rw [reMatch_eos (Or.inl rfl), reMatch_nil]
    simp

include hnl in
theorem conv_limit_match {me th ds nl : Text} {n : Nat} (m1 : me ≠ []) (m2 : '-' ∉ me) (t1 : th ≠ [])
    (t2 : '-' ∉ th) (h : Numeral digit ds n) (hn : OptNewline nl) :
    reMatch (convergenceRegex digit)
      (me ++ "-convergence-".toList ++ th ++ "-limit-".toList ++ ds ++ nl) [] =
      some [(1, me), (2, th), (0, ds)] := by
  obtain ⟨d1, d2, -⟩ := (numeral_iff digit).1 h
  unfold convergenceRegex
  rw [show me ++ "-convergence-".toList ++ th ++ "-limit-".toList ++ ds ++ nl =
    me ++ ("-convergence-".toList ++ (th ++ ("-limit-".toList ++ (ds ++ nl)))) by simp]
  apply conv_tail m2 m1 _ rfl
  rw [reMatch_lit]
  apply reMatch_plus t1
  · intro c hc
    have : c ≠ '-' := by rintro rfl; exact t2 hc
    simpa using this
  · intro c hc
    cases hc; rfl
  · have : reMatch [.lit "-limit-".toList, .plus (fun c => (digit c).isSome) 0, .eos]
        ("-limit-".toList ++ (ds ++ nl)) ([] ++ [(1, me)] ++ [(2, th)]) =
        some [(1, me), (2, th), (0, ds)] := by
      rw [reMatch_lit]
      apply reMatch_plus d1 d2 (head_newline digit hn hnl)
      rw [reMatch_eos hn, reMatch_nil]; rfl
    rw [reMatch, this]

include hnl in
theorem conv_match_some {s : Text} {g : Groups} (h : reMatch (convergenceRegex digit) s [] = some g) :
    ∃ me th, me ≠ [] ∧ '-' ∉ me ∧ th ≠ [] ∧ '-' ∉ th ∧
      ((s = me ++ "-convergence-".toList ++ th ∧ g = [(1, me), (2, th)]) ∨
       ∃ ds nl, Numeral digit ds (readInt digit ds) ∧ OptNewline nl ∧
        s = me ++ "-convergence-".toList ++ th ++ "-limit-".toList ++ ds ++ nl ∧
        g = [(1, me), (2, th), (0, ds)]) := by
  obtain ⟨me, s1, e1, m1, m2, k1⟩ := reMatch_plus_some h
  obtain ⟨s2, e2, k2⟩ := reMatch_lit_some k1
  obtain ⟨th, s3, e3, t1, t2, k3⟩ := reMatch_plus_some k2
  subst e3 e2 e1
  have m3 : '-' ∉ me := fun hm => by simpa using m2 _ hm
  have t3 : '-' ∉ th := fun ht => by simpa using t2 _ ht
  rcases reMatch_opt_some k3 with k4 | ⟨-, k4⟩
  · refine ⟨me, th, m1, m3, t1, t3, Or.inr ?_⟩
    obtain ⟨s4, rfl, k5⟩ := reMatch_lit_some k4
    obtain ⟨ds, nl, rfl, d1, d2, k6⟩ := reMatch_plus_some k5
    obtain ⟨hn, k7⟩ := reMatch_eos_some k6
    rw [reMatch_nil] at k7
    exact ⟨ds, nl, (numeral_iff digit).2 ⟨d1, d2, rfl⟩, hn, by simp, by simpa using k7.symm⟩
  · simp only [List.drop_succ_cons, List.drop_zero] at k4
    obtain ⟨hn, -⟩ := reMatch_eos_some k4
    have t4 : th ++ s3 ≠ [] := by simp [t1]
    have t5 : '-' ∉ th ++ s3 := by
      rcases hn with rfl | rfl
      · simpa using t3
      · simpa using t3
    refine ⟨me, th ++ s3, m1, m3, t4, t5, Or.inl ⟨by simp, ?_⟩⟩
    have := conv_match digit m1 m3 t4 t5
    rw [List.append_assoc] at this
    rw [this] at h
    simpa using h.symm
end

theorem readMeasure_ok {t : Text} {m : Measure} :
    readMeasure t = .ok m ↔ t = (measureName m).toList := by
  unfold readMeasure
  constructor
  · intro h
    split at h
    · rename_i e; cases h; exact e
    split at h
    · rename_i e; cases h; exact e
    split at h
    · rename_i e; cases h; exact e
    split at h
    · rename_i e; cases h; exact e
    cases h
  · rintro rfl
    cases m <;> decide

theorem readMeasure_error {t : Text} {e : PyErr} (h : readMeasure t = .error e) : e = .valueError := by
  unfold readMeasure at h
  split at h; · cases h
  split at h; · cases h
  split at h; · cases h
  split at h; · cases h
  cases h; rfl

theorem readPrior_ok {t : Text} {m : Prior} :
    readPrior t = .ok m ↔ t = (priorName m).toList := by
  unfold readPrior
  constructor
  · intro h
    split at h
    · rename_i e; cases h; exact e
    split at h
    · rename_i e; cases h; exact e
    split at h
    · rename_i e; cases h; exact e
    split at h
    · rename_i e; cases h; exact e
    cases h
  · rintro rfl
    cases m <;> decide

theorem readPrior_error {t : Text} {e : PyErr} (h : readPrior t = .error e) : e = .valueError := by
  unfold readPrior at h
  split at h; · cases h
  split at h; · cases h
  split at h; · cases h
  split at h; · cases h
  cases h; rfl

theorem measureName_clean (m : Measure) : (measureName m).toList ≠ [] ∧ '-' ∉ (measureName m).toList := by
  cases m <;> decide


/-! ### C48 -/

section
variable {S V X α : Type} [DecidableEq S] [DecidableEq V] [DecidableEq X] [Arith α]
variable (digit : Char → Option Nat) (parseFloat : Text → Option α)

omit [DecidableEq S] [DecidableEq V] [DecidableEq X] in
/-- **C48.** `get_iterator` returns an iterator exactly for the texts described by the
grammar `Describes`, and the one they describe; for every other text it raises
`ValueError`. -/
theorem C48_grammar (hnl : digit '\n' = none) (s : Text) (maxLimit : Int) :
    (∀ it, getIterator digit parseFloat s maxLimit = .ok it ↔ Describes digit parseFloat maxLimit s it) ∧
    (∀ e, getIterator digit parseFloat s maxLimit = .error e → e = .valueError) := by
  have complete : ∀ it, Describes digit parseFloat maxLimit s it →
      getIterator digit parseFloat s maxLimit = .ok it := by
    intro it h
    cases h with
    | fixed ds nl n hds hn hle =>
      unfold getIterator
      rw [fixed_match digit hnl hds hn]
      have : readInt digit ds = n := ((numeral_iff digit).1 hds).2.2
      simp only [Groups.text, List.lookup, beq_self_eq_true, Option.getD_some, this]
      rw [if_neg (by omega)]
      simp [mkFixed]
    | conv m th x hne hth hx =>
      obtain ⟨m1, m2⟩ := measureName_clean m
      have hno : reMatch (fixedRegex digit)
          ((measureName m).toList ++ "-convergence-".toList ++ th) [] = none := by
        cases h : reMatch (fixedRegex digit)
          ((measureName m).toList ++ "-convergence-".toList ++ th) [] with
        | none => rfl
        | some g =>
          obtain ⟨ds, nl, e, -⟩ := fixed_match_some digit h
          cases m <;> simp [measureName] at e
      unfold getIterator
      rw [hno, conv_match digit m1 m2 hne hth]
      have hm : readMeasure (measureName m).toList = .ok m := readMeasure_ok.2 rfl
      simp only [Groups.text]
      rw [show List.lookup 1 [(1, (measureName m).toList), (2, th)] = some (measureName m).toList from rfl,
        show List.lookup 2 [(1, (measureName m).toList), (2, th)] = some th from rfl,
        show List.lookup 0 [(1, (measureName m).toList), (2, th)] = none from rfl]
      simp only [Option.getD_some, hm, hx, bind, Except.bind, pure, Except.pure]
      rfl
    | convLimit m th ds nl x n hne hth hx hds hn hle =>
      obtain ⟨m1, m2⟩ := measureName_clean m
      have hno : reMatch (fixedRegex digit) ((measureName m).toList ++ "-convergence-".toList ++ th ++
          "-limit-".toList ++ ds ++ nl) [] = none := by
        cases h : reMatch (fixedRegex digit) ((measureName m).toList ++ "-convergence-".toList ++ th ++
          "-limit-".toList ++ ds ++ nl) [] with
        | none => rfl
        | some g =>
          obtain ⟨ds, nl, e, -⟩ := fixed_match_some digit h
          cases m <;> simp [measureName] at e
      unfold getIterator
      rw [hno, conv_limit_match digit hnl m1 m2 hne hth hds hn]
      have hm : readMeasure (measureName m).toList = .ok m := readMeasure_ok.2 rfl
      have hr : readInt digit ds = n := ((numeral_iff digit).1 hds).2.2
      simp only [Groups.text]
      rw [show List.lookup 1 [(1, (measureName m).toList), (2, th), (0, ds)] =
          some (measureName m).toList from rfl,
        show List.lookup 2 [(1, (measureName m).toList), (2, th), (0, ds)] = some th from rfl,
        show List.lookup 0 [(1, (measureName m).toList), (2, th), (0, ds)] = some ds from rfl]
      simp only [Option.getD_some, hm, hx, bind, Except.bind, pure, Except.pure, hr]
      rw [if_neg (by omega)]
      rfl
  have sound : ∀ r, getIterator digit parseFloat s maxLimit = r →
      (∃ it, r = .ok it ∧ Describes digit parseFloat maxLimit s it) ∨ r = .error .valueError := by
    rintro r rfl
    unfold getIterator
    cases hf : reMatch (fixedRegex digit) s [] with
    | some g =>
      obtain ⟨ds, nl, rfl, hn, hds, rfl⟩ := fixed_match_some digit hf
      simp only [Groups.text, List.lookup, beq_self_eq_true, Option.getD_some]
      split
      · right; rfl
      · left
        rename_i h
        refine ⟨.fixed (readInt digit ds), ?_, .fixed ds nl _ hds hn (by omega)⟩
        simp [mkFixed]
    | none =>
      cases hc : reMatch (convergenceRegex digit) s [] with
      | none => right; rfl
      | some g =>
        obtain ⟨me, th, m1, m2, t1, t2, hg⟩ := conv_match_some digit hnl hc
        have hl1 : g.lookup 1 = some me := by
          rcases hg with ⟨-, rfl⟩ | ⟨ds, nl, -, -, -, rfl⟩ <;> rfl
        have hl2 : g.lookup 2 = some th := by
          rcases hg with ⟨-, rfl⟩ | ⟨ds, nl, -, -, -, rfl⟩ <;> rfl
        simp only [Groups.text, hl1, hl2, Option.getD_some, bind, Except.bind]
        cases hm : readMeasure me with
        | error e => right; rw [readMeasure_error hm]
        | ok m =>
          have hme := readMeasure_ok.1 hm
          subst hme
          cases hx : parseFloat th with
          | none => right; rfl
          | some x =>
            dsimp only [pure, Except.pure]
            rcases hg with ⟨rfl, rfl⟩ | ⟨ds, nl, hds, hn, rfl, rfl⟩
            · left
              exact ⟨_, rfl, .conv m th x t1 t2 hx⟩
            · rw [show List.lookup 0 [(1, (measureName m).toList), (2, th), (0, ds)] = some ds from rfl]
              dsimp only
              split
              · right; rfl
              · left
                rename_i h
                exact ⟨_, rfl, .convLimit m th ds nl x _ t1 t2 hx hds hn (by omega)⟩
  constructor
  · intro it
    refine ⟨fun h => ?_, complete it⟩
    rcases sound _ h with ⟨it', e, h'⟩ | e
    · cases e; exact h'
    · cases e
  · intro e h
    rcases sound _ h with ⟨it', e', h'⟩ | e'
    · cases e'
    · cases e'; rfl

omit [DecidableEq S] [DecidableEq V] [DecidableEq X] in
theorem bounded_exec (hnl : digit '\n' = none) (s : Text) (maxLimit : Nat) (it : IterCfg α)
    (h : getIterator digit parseFloat s maxLimit = .ok it) (kind : Kind α) (priors : Option Prior)
    (m : Mats α) (fuel : Nat) (hfuel : maxLimit < fuel) (st : IterState α) :
    AlgCfg.exec ⟨kind, it, priors⟩ m fuel st ≠ .error .diverge ∧
    ∀ r, AlgCfg.exec ⟨kind, it, priors⟩ m fuel st = .ok r → r.iterations ≤ maxLimit := by
  have hd := ((C48_grammar digit parseFloat hnl s maxLimit).1 it).1 h
  have key : ∀ st' n t b t0 b0 L, Steps it (kind.body m) {} t0 b0 n st' t b L → n ≤ maxLimit := by
    intro st' n t b t0 b0 L hs
    cases hd with
    | fixed ds nl k hds hn hle => have := fixed_steps_le hs; omega
    | conv me th x hne hth hx => have := conv_steps_le hs; omega
    | convLimit me th ds nl x k hne hth hx hds hn hle => have := conv_steps_le hs; omega
  constructor
  · intro he
    by_cases h0 : m.numClaims = 0
    · rw [exec_empty _ _ _ _ h0] at he; cases he
    · rcases exec_error _ _ fuel st _ h0 he with h | ⟨-, t0, b0, st', t, b, L, -, hs⟩
      · simp at h
      · have := key _ _ _ _ _ _ _ hs; omega
  · intro r hr
    obtain ⟨-, t0, b0, n, st', t, b, L, hi, -, hs, hst, hf, hit, -⟩ := (exec_ok_iff _ m fuel st r).1 hr
    rw [hit]; exact key _ _ _ _ _ _ _ hs

/-- **C48.** An iterator obtained from a text with limit `maxLimit` bounds every run:
no algorithm performs more than `maxLimit` iterations with it, on any dataset, and the
run always ends. -/
theorem C48_bounded (hnl : digit '\n' = none) (s : Text) (maxLimit : Nat) (it : IterCfg α)
    (h : getIterator digit parseFloat s maxLimit = .ok it) (kind : Kind α) (priors : Option Prior)
    (h10 : Arith.eq (Arith.ofNat 1 : α) (Arith.ofNat 0) = false)
    {S V X : Type} [DecidableEq S] [DecidableEq V] [DecidableEq X]
    (l : List (S × V × X)) (am : Bool) (f : Option (V → X → X → Option α))
    (d : Dataset S V X α) (hd : Dataset.mk' l am f = .ok d)
    (fuel : Nat) (hfuel : maxLimit < fuel) (clock : Nat → α) (st : IterState α) :
    AlgCfg.run ⟨kind, it, priors⟩ d fuel clock st ≠ .error .diverge ∧
    ∀ r, AlgCfg.run ⟨kind, it, priors⟩ d fuel clock st = .ok r → ∃ n ≤ maxLimit, r.iterations = some n := by
  obtain ⟨rfl, -, -⟩ := (mk'_ok_iff l h10 am f d).1 hd
  obtain ⟨h1, h2⟩ := bounded_exec digit parseFloat hnl s maxLimit it h kind priors (matsOf l f) fuel hfuel st
  rw [run_eq]
  cases he : AlgCfg.exec ⟨kind, it, priors⟩ (matsOf l f) fuel st with
  | error e => rw [he] at h1; exact ⟨by simpa using h1, nofun⟩
  | ok out =>
    refine ⟨nofun, ?_⟩
    intro r hr
    simp only [Except.ok.injEq] at hr
    exact ⟨out.iterations, h2 out he, by rw [← hr]; rfl⟩

/-! ### C49 -/

theorem splitOnce_some {sep : Char} {t a b : Text} :
    splitOnce sep t = some (a, b) ↔ t = a ++ sep :: b ∧ sep ∉ a := by
  induction t generalizing a with
  | nil => simp [splitOnce]
  | cons c t ih =>
    simp only [splitOnce]
    by_cases h : c = sep
    · subst h
      simp only [if_true, Option.some.injEq, Prod.mk.injEq]
      constructor
      · rintro ⟨rfl, rfl⟩; simp
      · rintro ⟨e, hn⟩
        cases a with
        | nil => simpa using e
        | cons x a => simp at e; exact absurd (by simp [e.1]) hn
    · rw [if_neg h]
      cases hs : splitOnce sep t with
      | none =>
        simp only [reduceCtorEq, false_iff, not_and, not_not]
        intro e
        cases a with
        | nil => simp at e; exact absurd e.1 h
        | cons x a =>
          simp only [List.cons_append, List.cons.injEq] at e
          by_contra hn
          have := (ih (a := a)).2 ⟨e.2, fun hm => hn (by simp [hm])⟩
          rw [hs] at this; cases this
      | some p =>
        obtain ⟨a', b'⟩ := p
        simp only [Option.some.injEq, Prod.mk.injEq]
        constructor
        · rintro ⟨rfl, rfl⟩
          obtain ⟨e, hn⟩ := ih.1 hs
          refine ⟨by simp [e], ?_⟩
          simp only [List.mem_cons, not_or]
          exact ⟨fun e => h e.symm, hn⟩
        · rintro ⟨e, hn⟩
          cases a with
          | nil => simp at e; exact absurd e.1 h
          | cons x a =>
            simp only [List.cons_append, List.cons.injEq] at e
            simp only [List.mem_cons, not_or] at hn
            have := (ih (a := a)).2 ⟨e.2, hn.2⟩
            rw [hs] at this
            simp only [Option.some.injEq, Prod.mk.injEq] at this
            exact ⟨by rw [e.1, this.1], this.2⟩

theorem splitOnce_none {sep : Char} {t : Text} : splitOnce sep t = none ↔ sep ∉ t := by
  induction t with
  | nil => simp [splitOnce]
  | cons c t ih =>
    simp only [splitOnce]
    by_cases h : c = sep
    · subst h; simp
    · rw [if_neg h]
      cases hs : splitOnce sep t with
      | none =>
        simp only [List.mem_cons, not_or, true_iff]
        exact ⟨fun e => h e.symm, ih.1 hs⟩
      | some p =>
        obtain ⟨a, b⟩ := p
        simp only [reduceCtorEq, false_iff, not_not]
        obtain ⟨e, -⟩ := splitOnce_some.1 hs
        simp [e]

omit [DecidableEq S] [DecidableEq V] [DecidableEq X] in
/-- **C49.** `algorithm_parameter` returns a name and a value exactly for the texts
`name=value` (first `=`, whitespace around both ignored) whose value has a meaning
for that name; for every other text it raises `ValueError`. -/
theorem C49_parameter (hnl : digit '\n' = none) (t : Text) :
    (∀ name v, algorithmParameter digit parseFloat t = .ok (name, v) ↔
      ∃ value, Assignment t name value ∧ Means digit parseFloat name value v) ∧
    (∀ e, algorithmParameter digit parseFloat t = .error e → e = .valueError) := by
  have hst : ∀ {a u : Text}, Stripped a u ↔ u = strip a :=
    fun {a u} => ⟨fun h => (strip_of_stripped h).symm, fun h => h ▸ strip_stripped a⟩
  unfold algorithmParameter
  cases hs : splitOnce '=' t with
  | none =>
    refine ⟨?_, ?_⟩
    · intro name v
      simp only [reduceCtorEq, false_iff, not_exists, not_and]
      rintro value ⟨a, b, rfl, -⟩
      have := splitOnce_none.1 hs
      simp at this
    · intro e h; cases h; rfl
  | some p =>
    obtain ⟨a, b⟩ := p
    dsimp only
    have hassign : ∀ name value, Assignment t name value ↔ name = strip a ∧ value = strip b := by
      intro name value
      constructor
      · rintro ⟨a', b', e, hn, h1, h2⟩
        have := splitOnce_some.2 ⟨e, hn⟩
        rw [hs] at this
        cases this
        exact ⟨hst.1 h1, hst.1 h2⟩
      · rintro ⟨rfl, rfl⟩
        obtain ⟨e, hn⟩ := splitOnce_some.1 hs
        exact ⟨a, b, e, hn, hst.2 rfl, hst.2 rfl⟩
    have hex : ∀ name v, (∃ value, Assignment t name value ∧ Means digit parseFloat name value v) ↔
        name = strip a ∧ Means digit parseFloat (strip a) (strip b) v := by
      intro name v
      simp only [hassign]
      constructor
      · rintro ⟨value, ⟨rfl, rfl⟩, h⟩; exact ⟨rfl, h⟩
      · rintro ⟨rfl, h⟩; exact ⟨_, ⟨rfl, rfl⟩, h⟩
    simp only [hex]
    obtain ⟨g1, g2⟩ := C48_grammar digit parseFloat hnl (strip b) 200
    by_cases h1 : strip a = "iterator".toList
    · rw [if_pos h1, h1]
      cases hi : getIterator digit parseFloat (strip b) with
      | error e =>
        refine ⟨?_, ?_⟩
        · intro name v
          constructor
          · intro h; cases h
          · rintro ⟨rfl, h⟩
            generalize hb : strip b = sb at h
            generalize hn : "iterator".toList = nm at h
            cases h with
            | iterator t it h =>
              subst hb
              have := (g1 it).2 h
              rw [hi] at this; cases this
            | priors p => exact absurd hn (by decide)
            | num name t x n1 n2 h => exact absurd hn.symm n1
        · intro e' h
          cases h
          exact g2 e hi
      | ok it =>
        refine ⟨?_, ?_⟩
        · intro name v
          constructor
          · intro h; cases h
            exact ⟨rfl, .iterator _ _ ((g1 it).1 hi)⟩
          · rintro ⟨rfl, h⟩
            generalize hb : strip b = sb at h
            generalize hn : "iterator".toList = nm at h
            cases h with
            | iterator t it' h =>
              subst hb
              have := (g1 it').2 h
              rw [hi] at this; cases this; rfl
            | priors p => exact absurd hn (by decide)
            | num name t x n1 n2 h => exact absurd hn.symm n1
        · intro e' h; cases h
    · rw [if_neg h1]
      by_cases h2 : strip a = "priors".toList
      · rw [if_pos h2, h2]
        cases hi : readPrior (strip b) with
        | error e =>
          refine ⟨?_, ?_⟩
          · intro name v
            constructor
            · intro h; cases h
            · rintro ⟨rfl, h⟩
              generalize hb : strip b = sb at h
              generalize hn : "priors".toList = nm at h
              cases h with
              | iterator t it h => exact absurd hn (by decide)
              | priors p =>
                rw [hb, readPrior_ok.2 rfl] at hi; cases hi
              | num name t x n1 n2 h => exact absurd hn.symm n2
          · intro e' h
            cases h
            exact readPrior_error hi
        | ok p =>
          refine ⟨?_, ?_⟩
          · intro name v
            constructor
            · intro h; cases h
              refine ⟨rfl, ?_⟩
              rw [readPrior_ok.1 hi]
              exact .priors p
            · rintro ⟨rfl, h⟩
              generalize hb : strip b = sb at h
              generalize hn : "priors".toList = nm at h
              cases h with
              | iterator t it h => exact absurd hn (by decide)
              | priors q =>
                rw [hb, readPrior_ok.2 rfl] at hi; cases hi; rfl
              | num name t x n1 n2 h => exact absurd hn.symm n2
          · intro e' h; cases h
      · rw [if_neg h2]
        cases hi : parseFloat (strip b) with
        | none =>
          refine ⟨?_, ?_⟩
          · intro name v
            constructor
            · intro h; cases h
            · rintro ⟨rfl, h⟩
              generalize hb : strip b = sb at h
              generalize hn : strip a = nm at h
              cases h with
              | iterator t it h => exact absurd hn h1
              | priors p => exact absurd hn h2
              | num name t x n1 n2 h => rw [hb, h] at hi; cases hi
          · intro e' h; cases h; rfl
        | some x =>
          refine ⟨?_, ?_⟩
          · intro name v
            constructor
            · intro h; cases h
              exact ⟨rfl, .num _ _ x h1 h2 hi⟩
            · rintro ⟨rfl, h⟩
              generalize hb : strip b = sb at h
              generalize hn : strip a = nm at h
              cases h with
              | iterator t it h => exact absurd hn h1
              | priors p => exact absurd hn h2
              | num name t y n1 n2 h => rw [hb, h] at hi; cases hi; rfl
          · intro e' h; cases h
end

/-! ### C50 -/
section
variable {α : Type} [Arith α]

theorem name_eq (c : AlgLabel) : c.name = (labelName c).toList := by cases c <;> rfl

theorem accepts_iff (c : AlgLabel) (k : Text) : k ∈ c.paramNames ↔ Accepts c k := by
  cases c <;> simp only [AlgLabel.paramNames, Accepts, accepts, List.mem_cons, List.not_mem_nil,
    or_false, exists_eq_or_imp, exists_eq_left, false_and, exists_false] <;> tauto

/-- **C50.** A parameter that the class does not have raises `TypeError`. -/
theorem C50_unknown (c : AlgLabel) (params : Dict Text (PVal α)) (k : Text) (hk : k ∈ params.keys)
    (h : ¬ Accepts c k) : makeAlg c params = .error .typeError := by
  have h1 : (params.keys.all fun k => decide (k ∈ c.paramNames)) = false := by
    rw [List.all_eq_false]
    exact ⟨k, hk, by simpa using fun hm => h ((accepts_iff c k).1 hm)⟩
  unfold makeAlg
  rw [h1]
  rfl

/-- **C50.** `algorithm_cls` accepts exactly the documented labels and gives the class
documented for each; every other text raises `ValueError`. -/
theorem C50_label (t : Text) :
    (∀ c, algorithmCls t = .ok c ↔ t = (labelName c).toList) ∧
    (∀ e, algorithmCls t = .error e → e = .valueError ∧ ∀ c, t ≠ (labelName c).toList) := by
  simp only [← name_eq]
  unfold algorithmCls
  cases h : AlgLabel.all.find? fun l => decide (l.name = t) with
  | none =>
    have hn : ∀ c : AlgLabel, t ≠ c.name := by
      intro c e
      have := List.find?_eq_none.1 h c (by cases c <;> decide)
      simp [e] at this
    exact ⟨fun c => by simp [hn c], fun e he => by cases he; exact ⟨rfl, hn⟩⟩
  | some l =>
    have hl : l.name = t := by simpa using List.find?_some h
    refine ⟨fun c => ?_, nofun⟩
    constructor
    · intro e; cases e; exact hl.symm
    · intro e
      have : l.name = c.name := hl.trans e
      congr 1
      revert this
      cases l <;> cases c <;> decide

omit [Arith α] in
/-- **C50.** Every parameter is either passed on unchanged (if the constructor of
the algorithm accepts its name) or reported as ignored, never both. -/
theorem C50_split (ord : List Text → List Text) (hord : ∀ L, (ord L).Perm L) (c : AlgLabel)
    (params : Dict Text (PVal α)) (k : Text) :
    (∀ v, (getAlgorithmParams ord c params).1.get? k = some v ↔
      params.get? k = some v ∧ Accepts c k) ∧
    (k ∈ (getAlgorithmParams ord c params).2 ↔ k ∈ params.keys ∧ ¬ Accepts c k) := by
  simp only [← accepts_iff]
  have hg : (filterDict params (ord c.paramNames)).get? k =
      if k ∈ c.paramNames then params.get? k else none := by
    rw [get_filterDict]; simp only [(hord c.paramNames).mem_iff]
  constructor
  · intro v
    show (filterDict params (ord c.paramNames)).get? k = some v ↔ _
    rw [hg]
    by_cases h : k ∈ c.paramNames <;> simp [h]
  · show k ∈ params.keys.filter (fun k => !((filterDict params (ord c.paramNames)).has k)) ↔ _
    rw [List.mem_filter, Dict.has, hg]
    constructor
    · rintro ⟨h1, h2⟩
      refine ⟨h1, fun h => ?_⟩
      obtain ⟨v, hv⟩ := mem_keys_iff.1 h1
      rw [if_pos h, hv] at h2; simp at h2
    · rintro ⟨h1, h2⟩
      exact ⟨h1, by simp [h2]⟩

theorem kwNum_ok {params : Dict Text (PVal α)} (hk : ∀ k v, params.get? k = some v → WellKinded k v)
    (name : String) (h1 : name.toList ≠ "iterator".toList) (h2 : name.toList ≠ "priors".toList)
    (d : α) : ∃ x, kwNum params name.toList d = .ok x ∧ NumOr params name d x := by
  unfold kwNum NumOr
  cases h : params.get? name.toList with
  | none => exact ⟨d, rfl, Or.inr ⟨rfl, rfl⟩⟩
  | some v =>
    have := hk _ _ h
    cases v with
    | iterator i => exact absurd this h1
    | prior i => exact absurd this h2
    | num x => exact ⟨x, rfl, Or.inl rfl⟩

/-- **C50.** Constructing the algorithm with the accepted parameters never raises,
and gives the algorithm object with exactly these parameters and the documented
defaults for the others. -/
theorem C50_construct (ord : List Text → List Text) (hord : ∀ L, (ord L).Perm L) (c : AlgLabel)
    (params : Dict Text (PVal α)) (hk : ∀ k v, params.get? k = some v → WellKinded k v) :
    ∃ a, makeAlg c (getAlgorithmParams ord c params).1 = .ok a ∧ Constructed params c a := by
  obtain ⟨f, hf⟩ : ∃ f, f = (getAlgorithmParams ord c params).1 := ⟨_, rfl⟩
  have hget : ∀ k, k ∈ c.paramNames → f.get? k = params.get? k := by
    intro k hkc
    subst hf
    show (filterDict params (ord c.paramNames)).get? k = _
    rw [get_filterDict]; simp only [(hord c.paramNames).mem_iff, hkc, if_true]
  have hkeys : (f.keys.all fun k => decide (k ∈ c.paramNames)) = true := by
    rw [List.all_eq_true]
    intro k hkf
    obtain ⟨v, hv⟩ := mem_keys_iff.1 hkf
    subst hf
    simpa using (accepts_iff c k).2 (((C50_split ord hord c params k).1 v).1 hv).2
  have hkf : ∀ k v, f.get? k = some v → WellKinded k v := by
    intro k v hv
    subst hf
    exact hk k v (((C50_split ord hord c params k).1 v).1 hv).1
  rw [← hf]
  have hit : ∀ d : IterCfg α, "iterator".toList ∈ c.paramNames → ∃ it,
      kwIter f d = .ok it ∧ IterOr params d it := by
    intro d hm
    have hg := hget _ hm
    unfold IterOr kwIter
    cases h : f.get? "iterator".toList with
    | none => exact ⟨d, rfl, Or.inr ⟨by rw [← hg, h], rfl⟩⟩
    | some v =>
      have := hkf _ _ h
      cases v with
      | iterator i => exact ⟨i, rfl, Or.inl (by rw [← hg, h])⟩
      | prior i => exact absurd (show "iterator".toList = "priors".toList from this) (by decide)
      | num x => exact absurd rfl this.1
  have hpr : ∀ d : Prior, "priors".toList ∈ c.paramNames → ∃ p,
      kwPrior f d = .ok p ∧ PriorOr params d (some p) := by
    intro d hm
    have hg := hget _ hm
    unfold PriorOr kwPrior
    cases h : f.get? "priors".toList with
    | none => exact ⟨d, rfl, Or.inr ⟨by rw [← hg, h], rfl⟩⟩
    | some v =>
      have := hkf _ _ h
      cases v with
      | iterator i => exact absurd (show "priors".toList = "iterator".toList from this) (by decide)
      | prior i => exact ⟨i, rfl, Or.inl ⟨i, by rw [← hg, h], rfl⟩⟩
      | num x => exact absurd rfl this.2
  have hnum : ∀ (name : String) (d : α), name.toList ≠ "iterator".toList →
      name.toList ≠ "priors".toList → name.toList ∈ c.paramNames →
      ∃ x, kwNum f name.toList d = .ok x ∧ NumOr params name d x := by
    intro name d h1 h2 h3
    obtain ⟨x, e1, e2⟩ := kwNum_ok hkf name h1 h2 d
    refine ⟨x, e1, ?_⟩
    unfold NumOr at e2 ⊢
    rw [← hget _ h3]; exact e2
  unfold makeAlg
  simp only [hkeys, Bool.not_true, Bool.false_eq_true, if_false, bind, Except.bind, pure, Except.pure]
  cases c with
  | voting => exact ⟨_, rfl, .voting⟩
  | sums =>
    obtain ⟨it, e1, h1⟩ := hit (.fixed 20) (by decide)
    obtain ⟨p, e2, h2⟩ := hpr .fixed (by decide)
    simp only [e1, e2]
    exact ⟨_, rfl, .sums it _ h1 h2⟩
  | averageLog =>
    obtain ⟨it, e1, h1⟩ := hit (.fixed 20) (by decide)
    obtain ⟨p, e2, h2⟩ := hpr .fixed (by decide)
    simp only [e1, e2]
    exact ⟨_, rfl, .averageLog it _ h1 h2⟩
  | usums =>
    obtain ⟨it, e1, h1⟩ := hit (mkOrd none) (by decide)
    obtain ⟨p, e2, h2⟩ := hpr .count (by decide)
    simp only [e1, e2]
    exact ⟨_, rfl, .usums it _ h1 h2⟩
  | investment =>
    obtain ⟨it, e1, h1⟩ := hit (.fixed 20) (by decide)
    obtain ⟨p, e2, h2⟩ := hpr .voted (by decide)
    obtain ⟨g, e3, h3⟩ := hnum "g" (Arith.lit 12 10) (by decide) (by decide) (by decide)
    simp only [e1, e2, e3]
    exact ⟨_, rfl, .investment g it _ h3 h1 h2⟩
  | pooledInvestment =>
    obtain ⟨it, e1, h1⟩ := hit (.fixed 10) (by decide)
    obtain ⟨p, e2, h2⟩ := hpr .uniform (by decide)
    obtain ⟨g, e3, h3⟩ := hnum "g" (Arith.lit 14 10) (by decide) (by decide) (by decide)
    simp only [e1, e2, e3]
    exact ⟨_, rfl, .pooledInvestment g it _ h3 h1 h2⟩
  | crh =>
    obtain ⟨it, e1, h1⟩ := hit (.fixed 20) (by decide)
    obtain ⟨p, e2, h2⟩ := hpr .fixed (by decide)
    obtain ⟨g, e3, h3⟩ := hnum "eps" (Arith.lit 1 100000) (by decide) (by decide) (by decide)
    simp only [e1, e2, e3]
    exact ⟨_, rfl, .crh g it _ h3 h1 h2⟩
  | truthfinder =>
    obtain ⟨it, e1, h1⟩ := hit (mkConv (some .cosine) (some (Arith.lit 1 1000)) none) (by decide)
    obtain ⟨p, e2, h2⟩ := hpr .fixed (by decide)
    obtain ⟨a, e3, h3⟩ := hnum "influence_param" (Arith.lit 1 2) (by decide) (by decide) (by decide)
    obtain ⟨b, e4, h4⟩ := hnum "dampening_factor" (Arith.lit 3 10) (by decide) (by decide) (by decide)
    obtain ⟨t, e5, h5⟩ := hnum "initial_trust" (Arith.lit 9 10) (by decide) (by decide) (by decide)
    simp only [e1, e2, e3, e4, e5]
    exact ⟨_, rfl, .truthfinder a b t it _ h3 h4 h5 h1 h2⟩

/-- Everything `algorithm_parameter` returns is well-kinded. -/
theorem C50_parsed_kinds (digit : Char → Option Nat) (parseFloat : Text → Option α) (t name : Text)
    (v : PVal α) (h : algorithmParameter digit parseFloat t = .ok (name, v)) : WellKinded name v := by
  unfold algorithmParameter at h
  cases hs : splitOnce '=' t with
  | none => rw [hs] at h; cases h
  | some p =>
    obtain ⟨a, b⟩ := p
    rw [hs] at h
    dsimp only at h
    split at h
    · rename_i e
      cases hi : getIterator digit parseFloat (strip b) with
      | error e => rw [hi] at h; cases h
      | ok it => rw [hi] at h; cases h; exact e
    · rename_i e1
      split at h
      · rename_i e
        cases hi : readPrior (strip b) with
        | error e => rw [hi] at h; cases h
        | ok it => rw [hi] at h; cases h; exact e
      · rename_i e2
        cases hi : parseFloat (strip b) with
        | none => rw [hi] at h; cases h
        | some x => rw [hi] at h; cases h; exact ⟨e1, e2⟩
end

/-! ### C51 -/
section
variable {S V X : Type} [DecidableEq S] [DecidableEq V] [DecidableEq X]

theorem pySorted_perm {β : Type} (lt : β → β → Bool) (L : List β) : (pySorted lt L).Perm L := by
  induction L using List.reverseRecOn with
  | nil => simp [pySorted]
  | append_singleton L x ih =>
    have e : pySorted lt (L ++ [x]) = insertBy lt x (pySorted lt L) := by
      simp [pySorted, List.foldl_append]
    rw [e]
    exact (insertBy_perm x _).trans ((ih.cons x).trans (List.perm_append_singleton x L).symm)

theorem fp_lt_irrefl {R : Rounding} (a : FP R) : Arith.lt a a = false := by
  show FNum.lt a a = false
  cases a <;> simp [FNum.lt]

theorem mostBelieved_nonempty {R : Rounding} (r : Result S V X (FP R)) {v : V} {d : Dict X (FP R)}
    (hd : r.belief.get? v = some d) (hne : d ≠ []) :
    ∃ best, r.mostBelieved v = .ok best ∧ best ≠ [] := by
  unfold Result.mostBelieved
  simp only [Dict.get, hd, bind, Except.bind]
  have hp := pySorted_perm (fun p q => Arith.lt (Arith.neg p.2) (Arith.neg q.2)) d
  cases hs : pySorted (fun p q => Arith.lt (Arith.neg p.2) (Arith.neg q.2)) d with
  | nil => rw [hs] at hp; exact absurd hp.symm.eq_nil hne
  | cons p L =>
    exact ⟨_, rfl, by simp [fp_lt_irrefl]⟩

/-- **C51.** For every result whose dictionaries have unique keys and no variable
without values (all results of runs are such, `C51_runs`), `get_output_obj` succeeds;
its keys are exactly the requested fields (all if none were requested), except that
`accuracy` is there only if supervised data was given; each value is the one that
belongs to the field. -/
theorem C51_output {R : Rounding} {K : Type} [LinearOrder K] (key : X → K) (lt : X → X → Bool)
    (hlt : ∀ x y, lt x y = decide (key x < key y)) (r : Result S V X (FP R))
    (hr : Shaped r)
    (fields : Option (List Field)) (sup : Option (Dict V X × (Nat → Nat → Nat))) :
    ∃ out, getOutputObj lt r fields sup = .ok out ∧
      (∀ f, (∃ v, out.get? f = some v) ↔ Wanted fields f ∧ (f = .accuracy → sup ≠ none)) ∧
      (∀ f v, out.get? f = some v → Shows lt r sup f v) := by
  obtain ⟨hnd, hne⟩ := hr
  have hbest : ∀ v d, r.belief.get? v = some d → ∃ best, r.mostBelieved v = .ok best ∧ best ≠ [] :=
    fun v d h => mostBelieved_nonempty r h (hne v d h)
  have hfield : ∀ f, ∃ o, outField lt r sup f = .ok o ∧ (o = none ↔ f = .accuracy ∧ sup = none) ∧
      ∀ v, o = some v → Shows lt r sup f v := by
    intro f
    cases f with
    | time => exact ⟨_, rfl, by simp, by rintro v ⟨⟩; exact .time⟩
    | iterations => exact ⟨_, rfl, by simp, by rintro v ⟨⟩; exact .iterations⟩
    | trust => exact ⟨_, rfl, by simp, by rintro v ⟨⟩; exact .trust⟩
    | belief => exact ⟨_, rfl, by simp, by rintro v ⟨⟩; exact .belief⟩
    | trustStats => exact ⟨_, rfl, by simp, by rintro v ⟨⟩; exact .trustStats⟩
    | beliefStats => exact ⟨_, rfl, by simp, by rintro v ⟨⟩; exact .beliefStats⟩
    | accuracy =>
      cases sup with
      | none => exact ⟨none, rfl, by simp, nofun⟩
      | some p =>
        obtain ⟨values, pick⟩ := p
        have hb : ∀ p ∈ counted r values, ∃ best, r.mostBelieved p.1 = .ok best ∧ best ≠ [] := by
          intro p hp
          have := (List.mem_filter.1 hp).2
          cases hd : r.belief.get? p.1 with
          | none => simp [hd] at this
          | some d => exact hbest _ _ hd
        obtain ⟨a1, a2⟩ := C14_accuracy r values hb pick
        by_cases h0 : counted r values = []
        · refine ⟨some (.accuracy none), by simp only [outField, a1 h0], by simp, ?_⟩
          rintro v ⟨⟩
          exact .noAccuracy values pick rfl (a1 h0)
        · obtain ⟨ch, -, e⟩ := a2 h0
          exact ⟨_, by simp only [outField, e]; rfl, by simp, by
            rintro v ⟨⟩
            exact .accuracy values pick _ rfl e⟩
    | mostBelieved =>
      have hm : ∀ v ∈ r.belief.keys, ∃ best, r.mostBelieved v = .ok best := by
        intro v hv
        obtain ⟨d, hd⟩ := mem_keys_iff.1 hv
        obtain ⟨b, hb, -⟩ := hbest v d hd
        exact ⟨b, hb⟩
      let g : V → Option (List X) := fun v => match r.mostBelieved v with
        | .ok best => some (pySorted lt best)
        | .error _ => none
      have hfold := foldlM_set (f := mostBelievedStep lt r) (g := g) (ks := r.belief.keys) (by
        intro k hk acc
        obtain ⟨b, hb⟩ := hm k hk
        simp only [mostBelievedStep, g, hb]) hnd
      have hkeys : ∀ L : List V, (∀ v ∈ L, ∃ best, r.mostBelieved v = .ok best) →
          (L.filterMap fun k => (g k).map fun v => (k, v)).map Prod.fst = L := by
        intro L hL
        induction L with
        | nil => rfl
        | cons v L ih =>
          obtain ⟨b, hb⟩ := hL v (by simp)
          simp only [g] at ih ⊢
          simp only [List.filterMap_cons, hb, Option.map_some, List.map_cons]
          rw [ih fun w hw => hL w (by simp [hw])]
      refine ⟨some (.mostBelieved (r.belief.keys.filterMap fun k => (g k).map fun v => (k, v))), ?_,
        by simp, ?_⟩
      · simp only [outField, hfold, bind, Except.bind, pure, Except.pure]
      · rintro v ⟨⟩
        refine .mostBelieved _ (hkeys _ hm) ?_
        intro v xs hxs
        have hmem := mem_of_lookup_some hxs
        simp only [List.mem_filterMap, Option.map_eq_some_iff] at hmem
        obtain ⟨w, hw, ys, hys, e⟩ := hmem
        simp only [Prod.mk.injEq] at e
        obtain ⟨rfl, rfl⟩ := e
        obtain ⟨b, hb⟩ := hm w hw
        simp only [g, hb, Option.some.injEq] at hys
        subst hys
        obtain ⟨s1, s2, -⟩ := pySorted_spec (k := key) hlt b
        refine ⟨b, hb, s2, s1.imp ?_⟩
        intro a c hac
        rw [hlt]; simpa using hac
  have hfold : ∀ fs : List Field, ∃ out, fs.foldlM (outStep lt r sup) [] = .ok out ∧
      (∀ f, (∃ v, out.get? f = some v) ↔ f ∈ fs ∧ (f = .accuracy → sup ≠ none)) ∧
      (∀ f v, out.get? f = some v → Shows lt r sup f v) := by
    intro fs
    induction fs using List.reverseRecOn with
    | nil => exact ⟨[], rfl, by simp [Dict.get?], by simp [Dict.get?]⟩
    | append_singleton fs f ih =>
      obtain ⟨out, h1, h2, h3⟩ := ih
      obtain ⟨o, o1, o2, o3⟩ := hfield f
      rw [List.foldlM_append, h1]
      simp only [bind, Except.bind, List.foldlM_cons, List.foldlM_nil, outStep, o1, pure, Except.pure]
      cases o with
      | none =>
        refine ⟨out, rfl, ?_, h3⟩
        intro f'
        rw [h2]
        obtain ⟨rfl, hs⟩ := o2.1 rfl
        constructor
        · rintro ⟨m, hh⟩; exact ⟨by simp [m], hh⟩
        · rintro ⟨m, hh⟩
          rcases List.mem_append.1 m with m | m
          · exact ⟨m, hh⟩
          · exact absurd hs (hh (by simpa using m))
      | some v =>
        have hset : ∀ f', (out.set f v).get? f' = if f' = f then some v else out.get? f' :=
          fun f' => get?_set out f v f'
        refine ⟨out.set f v, rfl, ?_, ?_⟩
        · intro f'
          rw [hset]
          by_cases hf : f' = f
          · subst hf
            simp only [if_true, Option.some.injEq, exists_eq', List.mem_append, List.mem_singleton,
              or_true, true_and, true_iff]
            intro ha hs
            exact absurd (o2.2 ⟨ha, hs⟩) (by simp)
          · rw [if_neg hf, h2]; simp [hf]
        · intro f' v' hv'
          rw [hset] at hv'
          by_cases hf : f' = f
          · subst hf; rw [if_pos rfl] at hv'; exact o3 v' hv'
          · rw [if_neg hf] at hv'; exact h3 f' v' hv'
  have hall : ∀ f : Field, f ∈ Field.all := by intro f; cases f <;> decide
  unfold getOutputObj
  cases fields with
  | none =>
    obtain ⟨out, h1, h2, h3⟩ := hfold Field.all
    exact ⟨out, h1, fun f => by rw [h2]; simp [hall, Wanted], h3⟩
  | some fs =>
    cases fs with
    | nil =>
      obtain ⟨out, h1, h2, h3⟩ := hfold Field.all
      exact ⟨out, h1, fun f => by rw [h2]; simp [hall, Wanted], h3⟩
    | cons f fs =>
      obtain ⟨out, h1, h2, h3⟩ := hfold (f :: fs)
      exact ⟨out, h1, fun f' => by rw [h2]; simp [Wanted], h3⟩

/-! The results of runs have the shape required above. -/

theorem keys_set {κ ν : Type} [DecidableEq κ] (d : Dict κ ν) (k : κ) (x : ν) :
    (d.set k x).keys = if k ∈ d.keys then d.keys else d.keys ++ [k] := by
  unfold Dict.set
  by_cases h : k ∈ d.keys
  · rw [if_pos h]
    obtain ⟨v, hv⟩ := mem_keys_iff.1 h
    have : d.has k = true := by simp [Dict.has, hv]
    rw [if_pos this]
    unfold Dict.keys
    rw [List.map_map]
    refine List.map_congr_left ?_
    intro p _
    simp only [Function.comp_apply]
    split <;> rfl
  · rw [if_neg h]
    have : d.has k = false := by
      cases hd : d.get? k with
      | none => simp [Dict.has, hd]
      | some v => exact absurd (mem_keys_iff.2 ⟨v, hd⟩) h
    rw [this]
    simp [Dict.keys]

theorem nodup_set {κ ν : Type} [DecidableEq κ] {d : Dict κ ν} (h : d.keys.Nodup) (k : κ) (x : ν) :
    (d.set k x).keys.Nodup := by
  rw [keys_set]
  split
  · exact h
  · rename_i hk
    exact List.nodup_append.2 ⟨h, by simp, by
      intro a ha b hb e
      simp only [List.mem_singleton] at hb
      exact hk (by rw [← hb, ← e]; exact ha)⟩

theorem set_ne_nil {κ ν : Type} [DecidableEq κ] (d : Dict κ ν) (k : κ) (x : ν) : d.set k x ≠ [] := by
  intro h
  have := keys_set d k x
  rw [h] at this
  by_cases hk : k ∈ d.keys
  · rw [if_pos hk] at this; rw [← this] at hk; simp [Dict.keys] at hk
  · rw [if_neg hk] at this; simp [Dict.keys] at this

theorem beliefDict_shaped {α : Type} (D : Dataset S V X α) (y : Vec α)
    (b : Dict V (Dict X α)) (h : D.beliefDict y = .ok b) :
    b.keys.Nodup ∧ ∀ v d, b.get? v = some d → d ≠ [] := by
  unfold Dataset.beliefDict at h
  have key : ∀ (L : List (Nat × α)) (acc b : Dict V (Dict X α)),
      (acc.keys.Nodup ∧ ∀ v d, acc.get? v = some d → d ≠ []) →
      L.foldlM (fun acc p => do
        let c ← D.claimIds.inv p.1
        let var ← D.varIds.inv c.1
        let val ← D.valHashes.inv c.2
        let acc := if acc.has var then acc else acc.set var []
        return acc.set var (((acc.get? var).getD []).set val p.2)) acc = .ok b →
      b.keys.Nodup ∧ ∀ v d, b.get? v = some d → d ≠ [] := by
    intro L
    induction L with
    | nil => intro acc b hacc hb; cases hb; exact hacc
    | cons p L ih =>
      intro acc b hacc hb
      rw [List.foldlM_cons] at hb
      simp only [bind, Except.bind] at hb
      cases hc : D.claimIds.inv p.1 with
      | error e => rw [hc] at hb; cases hb
      | ok c =>
        rw [hc] at hb
        dsimp only at hb
        cases hv : D.varIds.inv c.1 with
        | error e => rw [hv] at hb; cases hb
        | ok var =>
          rw [hv] at hb
          dsimp only at hb
          cases hx : D.valHashes.inv c.2 with
          | error e => rw [hx] at hb; cases hb
          | ok val =>
            rw [hx] at hb
            refine ih _ b ?_ hb
            constructor
            · refine nodup_set ?_ _ _
              split
              · exact hacc.1
              · exact nodup_set hacc.1 _ _
            · intro v d
              rw [get?_set]
              split
              · rename_i e
                intro hd
                cases hd
                exact set_ne_nil _ _ _
              · rename_i hne
                split
                · exact hacc.2 v d
                · rw [get?_set, if_neg hne]; exact hacc.2 v d
  exact key _ [] b ⟨by simp [Dict.keys], by simp [Dict.get?]⟩ h

/-- **C51.** Every result of a run, of any algorithm, has the shape required above. -/
theorem C51_runs {α : Type} [Arith α] (a : AnyAlg α) (D : Dataset S V X α) (fuel : Nat)
    (clock : Nat → α) (r : Result S V X α) (h : a.run D fuel clock = .ok r) : Shaped r := by
  cases a with
  | voting =>
    simp only [AnyAlg.run, votingRun, bind, Except.bind, pure, Except.pure] at h
    split at h; · cases h
    split at h; · cases h
    split at h; · cases h
    split at h; · cases h
    rename_i b hb
    cases h
    exact beliefDict_shaped D _ _ hb
  | iter c =>
    simp only [AnyAlg.run, AlgCfg.run, bind, Except.bind, pure, Except.pure] at h
    split at h; · cases h
    split at h; · cases h
    split at h; · cases h
    rename_i b hb
    cases h
    exact beliefDict_shaped D _ _ hb

end

/-! ### Examples -/
section
open Toy

/-- ASCII digits. -/
def asciiDigit (c : Char) : Option Nat :=
  if '0' ≤ c ∧ c ≤ '9' then some (c.toNat - '0'.toNat) else none

theorem asciiDigit_newline : asciiDigit '\n' = none := by decide

example : getIterator (α := Int) asciiDigit (fun t => if t = "3".toList then some 3 else none)
    "l_inf-convergence-3-limit-20".toList = .ok (.conv (some .lInf) 3 20) := by
  refine ((C48_grammar _ _ asciiDigit_newline _ 200).1 _).2 ?_
  exact .convLimit .lInf "3".toList "20".toList [] 3 20 (by decide) (by decide) (by simp)
    (.more "2".toList 2 '0' 0 (.one '2' 2 (by decide)) (by decide)) (Or.inl rfl) (by decide)

/-- The limit of the client is enforced. -/
example : getIterator (α := Int) asciiDigit (fun _ => none) "fixed-201".toList = .error .valueError := by
  have hn : Numeral asciiDigit "201".toList 201 :=
    .more "20".toList 20 '1' 1 (.more "2".toList 2 '0' 0 (.one '2' 2 (by decide)) (by decide)) (by decide)
  have hm := fixed_match asciiDigit asciiDigit_newline hn (Or.inl rfl)
  have e : "fixed-".toList ++ "201".toList ++ [] = "fixed-201".toList := by decide
  rw [e] at hm
  unfold getIterator
  rw [hm]
  simp only [Groups.text, List.lookup, beq_self_eq_true, Option.getD_some,
    ((numeral_iff asciiDigit).1 hn).2.2]
  rfl

example : algorithmParameter (α := Int) asciiDigit (fun t => if t = "7".toList then some 7 else none)
    " g = 7 ".toList = .ok ("g".toList, .num 7) := by
  refine ((C49_parameter _ _ asciiDigit_newline _).1 _ _).2 ⟨"7".toList, ?_, ?_⟩
  · exact ⟨" g ".toList, " 7 ".toList, by decide, by decide,
      by rw [show "g".toList = strip " g ".toList by decide]; exact strip_stripped _,
      by rw [show "7".toList = strip " 7 ".toList by decide]; exact strip_stripped _⟩
  · exact .num _ _ _ (by decide) (by decide) (by simp)

/-- One accepted and one ignored parameter. -/
example : let params : Dict Text (PVal Int) :=
      [("g".toList, .num 7), ("eps".toList, .num 3), ("priors".toList, .prior .count)]
    (∀ k v, params.get? k = some v → WellKinded k v) ∧
    (getAlgorithmParams id .investment params).2 = ["eps".toList] ∧
    ∃ a, makeAlg .investment (getAlgorithmParams id .investment params).1 = .ok a ∧
      Constructed params .investment a := by
  intro params
  have hk : ∀ k v, params.get? k = some v → WellKinded k v := by
    intro k v h
    have := mem_of_lookup_some h
    simp only [params, List.mem_cons, Prod.mk.injEq, List.not_mem_nil, or_false] at this
    rcases this with ⟨rfl, rfl⟩ | ⟨rfl, rfl⟩ | ⟨rfl, rfl⟩
    · exact ⟨by decide, by decide⟩
    · exact ⟨by decide, by decide⟩
    · exact rfl
  exact ⟨hk, rfl, C50_construct id (fun _ => .refl _) .investment params hk⟩

/-- A tie and a single value. -/
example : let r : Result String String Nat Ex :=
      ⟨[], [("x", [(2, Ex.fin 1), (1, Ex.fin 1)]), ("z", [(9, Ex.fin 1)])], Ex.fin 0, none⟩
    Shaped r ∧ ∃ out, getOutputObj (fun a b => decide (a < b)) r (some [.mostBelieved, .accuracy]) none =
      .ok out ∧ out.get? .accuracy = none ∧ (∃ v, out.get? .mostBelieved = some v) := by
  intro r
  have hs : Shaped r := by
    refine ⟨by decide, ?_⟩
    intro v d h
    have := mem_of_lookup_some h
    simp only [r, List.mem_cons, Prod.mk.injEq, List.not_mem_nil, or_false] at this
    rcases this with ⟨-, rfl⟩ | ⟨-, rfl⟩ <;> simp
  refine ⟨hs, ?_⟩
  obtain ⟨out, h1, h2, -⟩ := C51_output (R := Rounding.exact) (fun x : Nat => x)
    (fun a b => decide (a < b)) (fun _ _ => rfl) r hs (some [.mostBelieved, .accuracy]) none
  refine ⟨out, h1, ?_, (h2 .mostBelieved).2 ⟨by simp [Wanted], nofun⟩⟩
  cases h : out.get? .accuracy with
  | none => rfl
  | some v => exact absurd rfl (((h2 .accuracy).1 ⟨v, h⟩).2 rfl)

end

end TD
