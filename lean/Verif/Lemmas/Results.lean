import Verif.Lemmas.Dicts
import Verif.Lemmas.Firsts
import Verif.Lemmas.Exact
import Verif.Model.Heap
import Mathlib.Order.Basic
import Mathlib.Data.List.Perm.Basic
/-!
# Sorting, filtering and comparing results
-/

namespace TD
open Spec

section sort
variable {β K : Type} [LinearOrder K] {k : β → K} {lt : β → β → Bool}

theorem insertBy_perm (x : β) (L : List β) : (insertBy lt x L).Perm (x :: L) := by
  induction L with
  | nil => simp [insertBy]
  | cons y ys ih =>
    rw [insertBy]
    split
    · exact .refl _
    · exact ((ih.cons y).trans (.swap x y ys))

theorem insertBy_sorted (h : ∀ x y, lt x y = decide (k x < k y)) (x : β) {L : List β}
    (hs : L.Pairwise fun a b => k a ≤ k b) :
    (insertBy lt x L).Pairwise fun a b => k a ≤ k b := by
  induction L with
  | nil => simp [insertBy]
  | cons y ys ih =>
    rw [insertBy]
    rw [List.pairwise_cons] at hs
    split
    · rename_i hlt
      rw [h, decide_eq_true_eq] at hlt
      rw [List.pairwise_cons]
      refine ⟨?_, List.pairwise_cons.2 hs⟩
      intro a ha
      rcases List.mem_cons.1 ha with rfl | ha
      · exact hlt.le
      · exact hlt.le.trans (hs.1 a ha)
    · rename_i hlt
      rw [h, decide_eq_true_eq, not_lt] at hlt
      rw [List.pairwise_cons]
      refine ⟨?_, ih hs.2⟩
      intro a ha
      rcases List.mem_cons.1 ((insertBy_perm x ys).mem_iff.1 ha) with rfl | ha
      · exact hlt
      · exact hs.1 a ha

theorem insertBy_filter (h : ∀ x y, lt x y = decide (k x < k y)) (x : β) {L : List β}
    (hs : L.Pairwise fun a b => k a ≤ k b) (c : K) :
    (insertBy lt x L).filter (fun a => decide (k a = c)) =
      (L ++ [x]).filter (fun a => decide (k a = c)) := by
  induction L with
  | nil => simp [insertBy]
  | cons y ys ih =>
    rw [insertBy]
    rw [List.pairwise_cons] at hs
    split
    · rename_i hlt
      rw [h, decide_eq_true_eq] at hlt
      by_cases hx : k x = c
      · have : ∀ a ∈ y :: ys, ¬ k a = c := by
          intro a ha he
          rcases List.mem_cons.1 ha with rfl | ha
          · exact absurd (he.trans hx.symm) (ne_of_gt hlt)
          · exact absurd (he.trans hx.symm) (ne_of_gt (hlt.trans_le (hs.1 a ha)))
        rw [List.filter_append, List.filter_cons, List.filter_eq_nil_iff.2 (by simpa using this)]
        simp [hx]
      · simp [List.filter_append, List.filter_cons, hx]
    · rw [List.filter_cons, List.cons_append, List.filter_cons, ih hs.2]

theorem pySorted_spec (h : ∀ x y, lt x y = decide (k x < k y)) (L : List β) :
    (pySorted lt L).Pairwise (fun a b => k a ≤ k b) ∧ (pySorted lt L).Perm L ∧
    ∀ c, (pySorted lt L).filter (fun a => decide (k a = c)) =
      L.filter (fun a => decide (k a = c)) := by
  induction L using List.reverseRecOn with
  | nil => simp [pySorted]
  | append_singleton L x ih =>
    have e : pySorted lt (L ++ [x]) = insertBy lt x (pySorted lt L) := by
      simp [pySorted, List.foldl_append]
    rw [e]
    refine ⟨insertBy_sorted h x ih.1, ?_, ?_⟩
    · exact (insertBy_perm x _).trans ((ih.2.1.cons x).trans (List.perm_append_singleton x L).symm)
    · intro c
      rw [insertBy_filter h x ih.1, List.filter_append, List.filter_append, ih.2.2]

theorem insertBy_congr {lt' : β → β → Bool} {x : β} {L : List β}
    (h : ∀ y ∈ L, lt x y = lt' x y) : insertBy lt x L = insertBy lt' x L := by
  induction L with
  | nil => rfl
  | cons y ys ih =>
    rw [insertBy, insertBy, h y (by simp), ih fun z hz => h z (by simp [hz])]

theorem pySorted_congr {lt' : β → β → Bool} {L : List β}
    (h : ∀ x ∈ L, ∀ y ∈ L, lt x y = lt' x y) : pySorted lt L = pySorted lt' L ∧
      ∀ z, z ∈ pySorted lt L → z ∈ L := by
  induction L using List.reverseRecOn with
  | nil => simp [pySorted]
  | append_singleton L x ih =>
    have e : ∀ lt : β → β → Bool, pySorted lt (L ++ [x]) = insertBy lt x (pySorted lt L) := by
      simp [pySorted, List.foldl_append]
    obtain ⟨i1, i2⟩ := ih fun x hx y hy => h x (by simp [hx]) y (by simp [hy])
    rw [e, e, ← i1]
    refine ⟨insertBy_congr fun y hy => h x (by simp) y (by simp [i2 y hy]), ?_⟩
    intro z hz
    rcases List.mem_cons.1 ((insertBy_perm x _).mem_iff.1 hz) with rfl | hz
    · simp
    · simp [i2 z hz]

theorem takeWhile_sorted {L : List β} {p : β} (hs : (p :: L).Pairwise fun a b => k a ≤ k b) :
    (p :: L).takeWhile (fun a => !decide (k p < k a)) =
      (p :: L).filter (fun a => decide (k a = k p)) := by
  have aux : ∀ L : List β, (∀ a ∈ L, k p ≤ k a) → L.Pairwise (fun a b => k a ≤ k b) →
      L.takeWhile (fun a => !decide (k p < k a)) = L.filter (fun a => decide (k a = k p)) := by
    intro L
    induction L with
    | nil => simp
    | cons a L ih =>
      intro h1 h2
      rw [List.pairwise_cons] at h2
      by_cases hlt : k p < k a
      · rw [List.takeWhile_cons, List.filter_eq_nil_iff.2]
        · simp [hlt]
        · intro b hb
          rcases List.mem_cons.1 hb with rfl | hb
          · simpa using ne_of_gt hlt
          · simpa using ne_of_gt (hlt.trans_le (h2.1 b hb))
      · have he : k a = k p := le_antisymm (not_lt.1 hlt) (h1 a (by simp))
        rw [List.takeWhile_cons, List.filter_cons, ih (fun b hb => h1 b (by simp [hb])) h2.2]
        simp [he]
  refine aux _ ?_ hs
  rw [List.pairwise_cons] at hs
  intro a ha
  rcases List.mem_cons.1 ha with rfl | ha
  · exact le_refl _
  · exact hs.1 a ha
end sort

section dict
variable {κ ν : Type} [DecidableEq κ]

theorem lookup_filterMap_key (g : κ → Option ν) (L : List κ) (k : κ) :
    List.lookup k (L.filterMap fun k => (g k).map fun v => (k, v)) =
      if k ∈ L then g k else none := by
  induction L with
  | nil => simp
  | cons a L ih =>
    rw [List.filterMap_cons]
    by_cases h : k = a
    · subst h
      cases hg : g k with
      | none => simp [ih, hg]
      | some v => simp [List.lookup_cons]
    · cases hg : g a with
      | none => simp [ih, h]
      | some v => 
        have : (k == a) = false := by simp [h]
        simp [List.lookup_cons, this, ih, h]

theorem keys_filterMap (g : κ → Option ν) (L : List κ) :
    (L.filterMap fun k => (g k).map fun v => (k, v)).map Prod.fst =
      L.filter fun k => (g k).isSome := by
  induction L with
  | nil => rfl
  | cons a L ih =>
    rw [List.filterMap_cons, List.filter_cons]
    cases hg : g a <;> simp [ih]

theorem filterDict_eq (d : Dict κ ν) (keys : List κ) :
    filterDict d keys = (firsts keys).filterMap fun k => (d.get? k).map fun v => (k, v) := by
  unfold filterDict Dict.ofPairs
  induction keys using List.reverseRecOn with
  | nil => simp [firsts, firstsBy]
  | append_singleton L k ih =>
    rw [List.filterMap_append, List.foldl_append, ih, firsts_append]
    cases hg : d.get? k with
    | none =>
      simp only [List.filterMap_cons, hg, Option.map_none, List.filterMap_nil, List.foldl_nil]
      split <;> simp [hg]
    | some v =>
      simp only [List.filterMap_cons, hg, Option.map_some, List.filterMap_nil, List.foldl_cons,
        List.foldl_nil]
      by_cases hk : k ∈ L
      · rw [if_pos hk]
        unfold Dict.set Dict.has Dict.get?
        rw [lookup_filterMap_key]
        have : List.lookup k d = some v := hg
        simp only [mem_firsts, hk, ↓reduceIte]
        rw [if_pos (by simp [Dict.get?, this])]
        rw [List.map_filterMap]
        refine List.filterMap_congr ?_
        intro a _
        by_cases ha : a = k
        · subst ha; simp [Dict.get?, this]
        · cases h' : List.lookup a d <;> simp [ha, h']
      · rw [if_neg hk, dict_set_new, List.filterMap_append]
        · simp [hg]
        · rw [keys_filterMap]
          intro hm
          exact hk (mem_firsts.1 (List.mem_of_mem_filter hm))

theorem get_filterDict (d : Dict κ ν) (keys : List κ) (k : κ) :
    (filterDict d keys).get? k = if k ∈ keys then d.get? k else none := by
  rw [filterDict_eq, Dict.get?, lookup_filterMap_key]
  simp [mem_firsts]

theorem keys_filterDict (d : Dict κ ν) (keys : List κ) :
    (filterDict d keys).map Prod.fst = (firsts keys).filter fun k => (d.get? k).isSome := by
  rw [filterDict_eq, keys_filterMap]

theorem ofPairs_nodup {L : List (κ × ν)} (h : (L.map Prod.fst).Nodup) : Dict.ofPairs L = L := by
  unfold Dict.ofPairs
  induction L using List.reverseRecOn with
  | nil => rfl
  | append_singleton L p ih =>
    rw [List.map_append, List.nodup_append] at h
    rw [List.foldl_append, ih h.1]
    simp only [List.foldl_cons, List.foldl_nil]
    rw [dict_set_new]
    intro hm
    exact h.2.2 _ hm _ (by simp) rfl

/-- A loop filling a new dictionary key by key. -/
theorem foldlM_set {f : Dict κ ν → κ → Except PyErr (Dict κ ν)} {g : κ → Option ν} {ks : List κ}
    (hf : ∀ k ∈ ks, ∀ acc, f acc k = .ok (match g k with | none => acc | some x => acc.set k x))
    (hnd : ks.Nodup) :
    ks.foldlM f [] = .ok (ks.filterMap fun k => (g k).map fun v => (k, v)) := by
  induction ks using List.reverseRecOn with
  | nil => rfl
  | append_singleton L k ih =>
    rw [List.nodup_append] at hnd
    rw [List.foldlM_append, ih (fun a ha => hf a (by simp [ha])) hnd.1]
    show (List.foldlM f _ [k]) = _
    rw [List.foldlM_cons, hf k (by simp)]
    show (Except.ok _ : Except PyErr _) = _
    rw [List.filterMap_append]
    cases hg : g k with
    | none => simp [hg]
    | some x =>
      simp only
      rw [dict_set_new]
      · simp [hg]
      · rw [keys_filterMap]
        intro hm
        exact hnd.2.2 _ (List.mem_of_mem_filter hm) _ (by simp) rfl

theorem mem_keys_iff {d : Dict κ ν} {k : κ} : k ∈ d.keys ↔ ∃ x, d.get? k = some x := by
  unfold Dict.keys Dict.get?
  constructor
  · intro h
    by_contra hc
    push Not at hc
    cases hl : List.lookup k d with
    | some x => exact hc x hl
    | none =>
      rw [List.lookup_eq_none_iff] at hl
      obtain ⟨p, hp, rfl⟩ := List.mem_map.1 h
      simpa using hl p hp
  · rintro ⟨x, h⟩
    exact List.mem_map.2 ⟨_, mem_of_lookup_some h, rfl⟩

theorem nodup_common {ord : List κ → List κ} (ho : ∀ L, (ord L).Perm L) {k1 k2 : List κ}
    (h : k1.Nodup) : (common ord k1 k2).Nodup :=
  (ho _).nodup_iff.2 (h.filter _)

theorem mem_common {ord : List κ → List κ} (ho : ∀ L, (ord L).Perm L) {k1 k2 : List κ} {k : κ} :
    k ∈ common ord k1 k2 ↔ k ∈ k1 ∧ k ∈ k2 := by
  rw [common, (ho _).mem_iff]; simp

theorem diffDict_eq {α : Type} [Arith α] {ord : List κ → List κ} (ho : ∀ L, (ord L).Perm L)
    {d1 d2 : Dict κ α} (h1 : d1.keys.Nodup) :
    ∃ d, diffDict ord d1 d2 = .ok d ∧ d.keys.Nodup ∧ ∀ k, d.get? k =
      (d1.get? k).bind fun x => (d2.get? k).map fun y => y -. x := by
  refine ⟨_, foldlM_set (g := fun k => (d1.get? k).bind fun x => (d2.get? k).map fun y => y -. x)
    ?_ (nodup_common ho h1), ?_, ?_⟩
  · intro k hk acc
    rw [mem_common ho] at hk
    obtain ⟨x, hx⟩ := mem_keys_iff.1 hk.1
    obtain ⟨y, hy⟩ := mem_keys_iff.1 hk.2
    simp [Dict.get, hx, hy]
    rfl
  · unfold Dict.keys
    rw [keys_filterMap]
    exact (nodup_common ho h1).filter _
  · intro k
    rw [Dict.get?, lookup_filterMap_key]
    split
    · rfl
    · rename_i hk
      rw [mem_common ho, mem_keys_iff, mem_keys_iff] at hk
      cases e1 : d1.get? k with
      | none => rfl
      | some x =>
        cases e2 : d2.get? k with
        | none => rfl
        | some y => exact absurd ⟨⟨x, e1⟩, ⟨y, e2⟩⟩ hk
end dict

theorem get?_set {κ ν : Type} [DecidableEq κ] (d : Dict κ ν) (k : κ) (x : ν) (k' : κ) :
    (d.set k x).get? k' = if k' = k then some x else d.get? k' := by
  unfold Dict.set
  by_cases h : d.has k
  · rw [if_pos h]
    have : ∀ L : List (κ × ν), (L.lookup k).isSome →
        List.lookup k' (L.map fun p => if p.1 = k then (p.1, x) else p) =
          if k' = k then some x else L.lookup k' := by
      intro L
      have aux : ∀ L : List (κ × ν), k' ≠ k →
          List.lookup k' (L.map fun p => if p.1 = k then (p.1, x) else p) = L.lookup k' := by
        intro L hk
        induction L with
        | nil => rfl
        | cons p L ih =>
          obtain ⟨a, b⟩ := p
          by_cases ha : a = k
          · subst ha
            simp only [List.map_cons, if_true, List.lookup_cons, ih]
            have : (k' == a) = false := by simpa using hk
            simp [this]
          · simp only [List.map_cons, ha, if_false, List.lookup_cons, ih]
      by_cases hk : k' = k
      · subst hk
        rw [if_pos rfl]
        induction L with
        | nil => simp
        | cons p L ih =>
          obtain ⟨a, b⟩ := p
          intro hs
          by_cases ha : a = k'
          · subst ha; simp [List.lookup_cons]
          · have : (k' == a) = false := beq_eq_false_iff_ne.2 (Ne.symm ha)
            simp only [List.map_cons, ha, if_false, List.lookup_cons, this] at hs ⊢
            exact ih hs
      · intro _; rw [if_neg hk, aux L hk]
    exact this d h
  · rw [if_neg h]
    unfold Dict.has at h
    unfold Dict.get? at h ⊢
    have : ∀ L : List (κ × ν), ¬ (L.lookup k).isSome → List.lookup k' (L ++ [(k, x)]) =
        if k' = k then some x else L.lookup k' := by
      intro L
      induction L with
      | nil =>
        intro _
        by_cases hk : k' = k
        · subst hk; simp [List.lookup_cons]
        · have : (k' == k) = false := by simpa using hk
          simp [List.lookup_cons, this, hk]
      | cons p L ih =>
        obtain ⟨a, b⟩ := p
        intro hs
        have hka : (k == a) = false := by
          by_contra hc
          simp only [Bool.not_eq_false] at hc
          simp [List.lookup_cons, hc] at hs
        have hs' : ¬ (L.lookup k).isSome := by simpa [List.lookup_cons, hka] using hs
        by_cases hk : k' = k
        · subst hk
          have := ih hs'
          simp only [List.cons_append, List.lookup_cons, hka, if_true] at this ⊢
          exact this
        · have := ih hs'
          simp only [hk, if_false] at this
          simp only [List.cons_append, List.lookup_cons, this, hk, if_false]
    exact this d h

end TD
