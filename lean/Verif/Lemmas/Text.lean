import Verif.Model.Text
import Verif.Spec.Csv
import Mathlib.Data.List.Basic
import Mathlib.Data.List.Forall2
import Mathlib.Data.List.DropRight

namespace TD
open Spec

theorem split_ne_nil (sep : Char) (t : Text) : split sep t ≠ [] := by
  cases t with
  | nil => simp [split]
  | cons c cs =>
    simp only [split]
    split
    · simp
    · split <;> simp

theorem split_separated (sep : Char) (t : Text) : Separated sep t (split sep t) := by
  induction t with
  | nil => exact .one [] (by simp)
  | cons c cs ih =>
    simp only [split]
    split
    · rename_i h; subst h
      exact .more [] cs _ (by simp) ih
    · rename_i h
      cases hs : split sep cs with
      | nil => exact absurd hs (split_ne_nil _ _)
      | cons p ps =>
        rw [hs] at ih
        simp only
        cases ih with
        | one _ hp => exact .one _ (by simp [hp, Ne.symm h])
        | more _ t _ hp ht => exact .more (c :: p) t ps (by simp [hp, Ne.symm h]) ht

theorem split_of_separated {sep : Char} {t : Text} {ps : List Text} (h : Separated sep t ps) :
    split sep t = ps := by
  induction h with
  | one p hp =>
    induction p with
    | nil => rfl
    | cons c cs ih =>
      simp only [List.mem_cons, not_or] at hp
      simp only [split, Ne.symm hp.1, if_false, ih hp.2]
  | more p t ps hp ht ih =>
    induction p with
    | nil => simp [split, ih]
    | cons c cs ih' =>
      simp only [List.mem_cons, not_or] at hp
      simp only [List.cons_append, split, Ne.symm hp.1, if_false, ih' hp.2]

theorem separated_iff {sep : Char} {t : Text} {ps : List Text} :
    Separated sep t ps ↔ split sep t = ps :=
  ⟨split_of_separated, fun h => h ▸ split_separated sep t⟩

theorem separated_join {sep : Char} {ps : List Text} (hne : ps ≠ []) (h : ∀ p ∈ ps, sep ∉ p) :
    Separated sep (joinWith sep ps) ps := by
  induction ps with
  | nil => exact absurd rfl hne
  | cons p ps ih =>
    cases ps with
    | nil => exact .one p (h p (by simp))
    | cons q ps =>
      exact .more p _ _ (h p (by simp)) (ih (by simp) fun r hr => h r (by simp [hr]))

theorem split_join {sep : Char} {ps : List Text} (hne : ps ≠ []) (h : ∀ p ∈ ps, sep ∉ p) :
    split sep (joinWith sep ps) = ps := split_of_separated (separated_join hne h)

theorem isSpace_eq : isSpace = isBlank := by
  funext c
  unfold isSpace isBlank whitespaceCodes
  rw [Bool.eq_iff_iff]
  simp only [Bool.or_eq_true, Bool.and_eq_true, decide_eq_true_eq, beq_iff_eq, List.mem_cons,
    List.not_mem_nil, or_false]
  omega

theorem strip_of_stripped {t u : Text} (h : Stripped t u) : strip t = u := by
  obtain ⟨⟨a, b, rfl, ha, hb⟩, h1, h2⟩ := h
  rw [← isSpace_eq] at h1 h2 ha hb
  unfold strip
  cases u with
  | nil =>
    have : ∀ c ∈ a ++ b, isSpace c = true := by
      intro c hc; rcases List.mem_append.1 hc with h | h
      · exact ha c h
      · exact hb c h
    simp only [List.append_nil]
    have e : List.dropWhile isSpace (a ++ b) = [] := List.dropWhile_eq_nil_iff.2 this
    rw [e]
    rfl
  | cons c cs =>
    have hc : isSpace c = false := h1 c (by simp)
    have e1 : List.dropWhile isSpace (a ++ (c :: cs) ++ b) = (c :: cs) ++ b := by
      rw [List.append_assoc, List.dropWhile_append_of_pos ha]
      simp [List.dropWhile_cons, hc]
    rw [e1, List.reverse_append, List.dropWhile_append_of_pos (by simpa using hb)]
    have hl := h2 ((c :: cs).getLast (by simp)) (List.getLast?_eq_some_getLast (by simp))
    have hr : (c :: cs).reverse = (c :: cs).getLast (by simp) :: (c :: cs).dropLast.reverse := by
      conv_lhs => rw [← List.dropLast_append_getLast (l := c :: cs) (by simp)]
      simp
    rw [hr, List.dropWhile_cons, hl]
    simp only [Bool.false_eq_true, if_false]
    rw [← hr, List.reverse_reverse]

theorem strip_stripped (t : Text) : Stripped t (strip t) := by
  unfold Stripped
  rw [← isSpace_eq]
  refine ⟨⟨t.takeWhile isSpace,
    ((t.dropWhile isSpace).reverse.takeWhile isSpace).reverse, ?_, ?_, ?_⟩, ?_, ?_⟩
  · unfold strip
    conv_lhs => rw [← List.takeWhile_append_dropWhile (p := isSpace) (l := t)]
    rw [List.append_assoc, List.append_cancel_left_eq, ← List.reverse_append,
      List.takeWhile_append_dropWhile, List.reverse_reverse]
  · intro c hc; exact List.mem_takeWhile_imp hc
  · intro c hc
    rw [List.mem_reverse] at hc
    exact List.mem_takeWhile_imp hc
  · -- first character
    intro c hc
    unfold strip at hc
    set d := t.dropWhile isSpace with hd
    have hpre : (d.reverse.dropWhile isSpace).reverse <+: d := by
      have := (List.dropWhile_suffix (p := isSpace) (l := d.reverse))
      simpa using List.reverse_prefix.2 this
    obtain ⟨e, he⟩ := hpre
    have : c ∈ d.head? := by
      rw [← he, List.head?_append]
      simp only [Option.mem_def] at hc ⊢
      simp [hc]
    have := List.head?_dropWhile_not isSpace t
    rw [← hd] at this
    simp only [Option.mem_def] at *
    simp_all
  · intro c hc
    unfold strip at hc
    rw [List.getLast?_reverse] at hc
    have := List.head?_dropWhile_not isSpace (t.dropWhile isSpace).reverse
    simp only [Option.mem_def] at hc
    simp_all

theorem stripped_iff {t u : Text} : Stripped t u ↔ strip t = u :=
  ⟨strip_of_stripped, fun h => h ▸ strip_stripped t⟩

theorem forall₂_map_iff {A B : Type} (g : A → B) (as : List A) (bs : List B) :
    List.Forall₂ (fun a b => g a = b) as bs ↔ as.map g = bs := by
  rw [← List.forall₂_eq_eq_eq]
  simp

theorem table_iff {text : Text} {fields : List (List Text)} :
    Table text fields ↔
      (split '\n' (strip text)).map (fun line => (split ',' line).map strip) = fields := by
  unfold Table
  have key : ∀ line row, (∃ raw, Separated ',' line raw ∧ List.Forall₂ Stripped raw row) ↔
      (split ',' line).map strip = row := by
    intro line row
    constructor
    · rintro ⟨raw, h1, h2⟩
      rw [separated_iff] at h1
      rw [h1]
      rw [← forall₂_map_iff]
      exact h2.imp fun a b h => strip_of_stripped h
    · intro h
      refine ⟨_, split_separated _ _, ?_⟩
      rw [← forall₂_map_iff] at h
      exact h.imp fun a b h => stripped_iff.2 h
  constructor
  · rintro ⟨u, lines, h1, h2, h3⟩
    rw [strip_of_stripped h1, split_of_separated h2, ← forall₂_map_iff]
    exact h3.imp fun a b h => (key a b).1 h
  · intro h
    refine ⟨_, _, strip_stripped text, split_separated _ _, ?_⟩
    rw [← forall₂_map_iff] at h
    exact h.imp fun a b h => (key a b).2 h

theorem append_sep_inj {c : Char} {a b x y : Text} (ha : c ∉ a) (hb : c ∉ b)
    (h : a ++ c :: x = b ++ c :: y) : a = b ∧ x = y := by
  induction a generalizing b with
  | nil =>
    cases b with
    | nil => simpa using h
    | cons d b =>
      simp only [List.nil_append, List.cons_append, List.cons.injEq] at h
      exact absurd (by simp [h.1]) hb
  | cons d a ih =>
    cases b with
    | nil =>
      simp only [List.nil_append, List.cons_append, List.cons.injEq] at h
      exact absurd (by simp [h.1]) ha
    | cons d' b =>
      simp only [List.cons_append, List.cons.injEq] at h
      have := ih (by simp at ha; exact ha.2) (by simp at hb; exact hb.2) h.2
      exact ⟨by rw [h.1, this.1], this.2⟩

end TD
