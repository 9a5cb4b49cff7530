import Verif.Model.Dataset
import Verif.Lemmas.Firsts

namespace TD
open Spec
variable {κ : Type} [DecidableEq κ]

theorem lookup_zipIdx (l : List κ) (n : Nat) (k : κ) :
    (l.zipIdx n).lookup k = if k ∈ l then some (n + l.idxOf k) else none := by
  induction l generalizing n with
  | nil => simp
  | cons a l ih =>
    simp only [List.zipIdx_cons, List.lookup_cons, ih, List.mem_cons, List.idxOf_cons]
    by_cases h : k = a
    · simp [h]
    · have h' : ¬ a = k := fun e => h e.symm
      simp only [beq_iff_eq, h, ↓reduceIte, false_or, h', cond_false]
      have : (k == a) = false := by simp [h]
      have h2 : (a == k) = false := by simp [h']
      simp only [this, h2, cond_false]
      split <;> simp <;> omega

theorem idmap_get? (l : List κ) (k : κ) :
    Dict.get? (l.zipIdx) k = if k ∈ l then some (l.idxOf k) else none := by
  simp [Dict.get?, lookup_zipIdx]

theorem idmap_has (l : List κ) (k : κ) : Dict.has (l.zipIdx) k = decide (k ∈ l) := by
  simp only [Dict.has, idmap_get?]; split <;> simp [*]

theorem idmap_get (l : List κ) (k : κ) :
    Dict.get (l.zipIdx) k = if k ∈ l then .ok (l.idxOf k) else .error .keyError := by
  simp only [Dict.get, idmap_get?]; split <;> simp_all

theorem find_zipIdx (l : List κ) (n i : Nat) :
    (l.zipIdx n).find? (fun p => p.2 == i) =
      if h : n ≤ i ∧ i - n < l.length then some (l[i - n], i) else none := by
  induction l generalizing n with
  | nil => simp
  | cons a l ih =>
    simp only [List.zipIdx_cons, List.find?_cons, ih, List.length_cons]
    by_cases h : n = i
    · subst h; simp
    · have hb : (n == i) = false := by simp [h]
      simp only [hb]
      by_cases h2 : n + 1 ≤ i ∧ i - (n + 1) < l.length
      · rw [dif_pos h2, dif_pos (by omega)]
        have : i - n = (i - (n + 1)) + 1 := by omega
        simp [this]
      · rw [dif_neg h2, dif_neg (by omega)]

theorem idmap_inv (l : List κ) (i : Nat) :
    IDMap.inv (l.zipIdx) i = if h : i < l.length then .ok l[i] else .error .keyError := by
  simp only [IDMap.inv, find_zipIdx]
  by_cases h : i < l.length <;> simp [h]

theorem idmap_put_new (l : List κ) (k : κ) (h : k ∉ l) :
    IDMap.put (l.zipIdx) k l.length = .ok ((l ++ [k]).zipIdx) := by
  have h1 : (l.zipIdx).any (fun p => p.2 == l.length && !decide (p.1 = k)) = false := by
    rw [List.any_eq_false]
    intro p hp
    have := List.mem_zipIdx hp
    simp only [Bool.and_eq_true, beq_iff_eq]
    omega
  simp [IDMap.put, h1, Dict.set, idmap_has, h, List.zipIdx_append]

theorem idmap_getId (l : List κ) (k : κ) :
    IDMap.getId (l.zipIdx) k = .ok (if k ∈ l then l.idxOf k else l.length,
      (if k ∈ l then l else l ++ [k]).zipIdx) := by
  by_cases h : k ∈ l
  · simp [IDMap.getId, idmap_has, h, idmap_get, bind, Except.bind, pure, Except.pure]
  · have := idmap_put_new l k h
    simp only [IDMap.getId, idmap_has, h, decide_false, Bool.not_false, Bool.and_self, ↓reduceIte,
      List.length_zipIdx, this, idmap_get]
    simp [List.idxOf_append, h, idmap_get, bind, Except.bind, pure, Except.pure]

theorem idmap_getId_noinsert (l : List κ) (k : κ) :
    IDMap.getId (l.zipIdx) k false =
      if k ∈ l then .ok (l.idxOf k, l.zipIdx) else .error .keyError := by
  by_cases h : k ∈ l <;>
    simp [IDMap.getId, h, idmap_get, bind, Except.bind, pure, Except.pure]

/-- `get_id` for the mapping of first appearances. -/
theorem idmap_getId_firsts (l : List κ) (k : κ) :
    IDMap.getId ((firsts l).zipIdx) k =
      .ok ((firsts (l ++ [k])).idxOf k, (firsts (l ++ [k])).zipIdx) := by
  rw [idmap_getId]
  simp only [mem_firsts, firsts_append]
  by_cases h : k ∈ l
  · simp [h]
  · simp [h, List.idxOf_append, mem_firsts]

theorem idxOf_append_of_mem' {l m : List κ} {k : κ} (h : k ∈ l) :
    (l ++ m).idxOf k = l.idxOf k := by simp [List.idxOf_append, h]

theorem idxOf_firsts_append {l : List κ} {k x : κ} (h : k ∈ l) :
    (firsts (l ++ [x])).idxOf k = (firsts l).idxOf k := by
  rw [firsts_append]; split
  · rfl
  · exact idxOf_append_of_mem' (mem_firsts.2 h)

theorem idxOf_inj_of_mem {l : List κ} {a b : κ} (ha : a ∈ l) (h : l.idxOf a = l.idxOf b) : a = b := by
  have h1 := List.idxOf_lt_length_iff.2 ha
  have e1 : l[l.idxOf a]'h1 = a := List.getElem_idxOf h1
  have h2 : l.idxOf b < l.length := h ▸ h1
  have e2 : l[l.idxOf b]'h2 = b := List.getElem_idxOf h2
  rw [← e1, ← e2]; simp [h]

end TD
