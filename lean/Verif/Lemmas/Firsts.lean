import Verif.Spec.Dataset
import Mathlib.Data.List.Basic
import Mathlib.Data.List.Nodup

namespace TD.Spec
variable {β κ : Type} [DecidableEq κ]

theorem firstsBy_append (key : β → κ) (l : List β) (x : β) :
    firstsBy key (l ++ [x]) =
      if key x ∈ l.map key then firstsBy key l else firstsBy key l ++ [x] := by
  induction l with
  | nil => simp [firstsBy]
  | cons a l ih =>
    simp only [List.cons_append, firstsBy, ih, List.map_cons, List.mem_cons]
    by_cases h1 : key x = key a
    · simp only [h1, true_or, ↓reduceIte]
      split <;> simp [List.filter_append, h1]
    · by_cases h2 : key x ∈ l.map key
      · simp [h2]
      · simp [h1, h2]

theorem mem_firstsBy_sub {key : β → κ} {l : List β} {x : β} (h : x ∈ firstsBy key l) : x ∈ l := by
  induction l with
  | nil => simp [firstsBy] at h
  | cons a l ih =>
    simp only [firstsBy, List.mem_cons, List.mem_filter] at h
    rcases h with h | h
    · simp [h]
    · simp [ih h.1]

theorem map_key_firstsBy (key : β → κ) (l : List β) (k : κ) :
    k ∈ (firstsBy key l).map key ↔ k ∈ l.map key := by
  induction l with
  | nil => simp [firstsBy]
  | cons a l ih =>
    simp only [firstsBy, List.map_cons, List.mem_cons]
    by_cases hk : k = key a
    · simp [hk]
    · simp only [hk, false_or]
      rw [← ih]
      simp only [List.mem_map, List.mem_filter]
      constructor
      · rintro ⟨b, hb, rfl⟩; exact ⟨b, hb.1, rfl⟩
      · rintro ⟨b, hb, rfl⟩; exact ⟨b, ⟨hb, by simpa using hk⟩, rfl⟩

theorem nodup_map_firstsBy (key : β → κ) (l : List β) : ((firstsBy key l).map key).Nodup := by
  induction l with
  | nil => simp [firstsBy]
  | cons a l ih =>
    simp only [firstsBy, List.map_cons, List.nodup_cons]
    constructor
    · simp
    · exact (List.filter_sublist.map key).nodup ih

theorem firstsBy_eq_self {key : β → κ} {l : List β} (h : (l.map key).Nodup) :
    firstsBy key l = l := by
  induction l with
  | nil => rfl
  | cons a l ih =>
    simp only [List.map_cons, List.nodup_cons] at h
    simp only [firstsBy, ih h.2]
    congr 1
    rw [List.filter_eq_self]
    intro b hb
    simp only [ne_eq, decide_eq_true_eq]
    intro hk
    exact h.1 (by rw [← hk]; exact List.mem_map_of_mem hb)

theorem mem_firsts {l : List κ} {k : κ} : k ∈ firsts l ↔ k ∈ l := by
  have := map_key_firstsBy (id : κ → κ) l k
  simpa [firsts] using this

theorem nodup_firsts (l : List κ) : (firsts l).Nodup := by
  have := nodup_map_firstsBy (id : κ → κ) l
  simpa [firsts] using this

theorem firsts_append (l : List κ) (x : κ) :
    firsts (l ++ [x]) = if x ∈ l then firsts l else firsts l ++ [x] := by
  simp [firsts, firstsBy_append]

/-- An item is kept iff it is the first with its key somewhere. -/
theorem mem_firstsBy_iff (key : β → κ) (l : List β) (x : β) :
    x ∈ firstsBy key l ↔
      ∃ pre post, l = pre ++ x :: post ∧ ∀ y ∈ pre, key y ≠ key x := by
  induction l with
  | nil => simp [firstsBy]
  | cons a l ih =>
    simp only [firstsBy, List.mem_cons, List.mem_filter, ih, decide_eq_true_eq]
    constructor
    · rintro (rfl | ⟨⟨pre, post, rfl, h⟩, hk⟩)
      · exact ⟨[], l, rfl, by simp⟩
      · refine ⟨a :: pre, post, rfl, ?_⟩
        intro y hy
        rcases List.mem_cons.1 hy with rfl | hy
        · exact fun h => hk h.symm
        · exact h y hy
    · rintro ⟨pre, post, h, hk⟩
      cases pre with
      | nil => simp at h; exact Or.inl h.1.symm
      | cons b pre =>
        simp only [List.cons_append, List.cons.injEq] at h
        refine Or.inr ⟨⟨pre, post, h.2, fun y hy => hk y (by simp [hy])⟩, ?_⟩
        exact fun e => hk b (by simp) (by rw [e, h.1])

theorem firstsBy_eq_nil {key : β → κ} {l : List β} : firstsBy key l = [] ↔ l = [] := by
  cases l <;> simp [firstsBy]

end TD.Spec
