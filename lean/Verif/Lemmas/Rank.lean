import Verif.Model.Iterator
import Mathlib.Data.Finset.Card
import Mathlib.Data.Finset.Dedup
import Mathlib.Data.List.Sort
import Mathlib.Order.Basic
import Mathlib.Tactic.Common

/-! `get_ranking_vector` on values that are ordered by a key. -/

namespace TD
variable {α K : Type} [LinearOrder K]

/-- Number of distinct smaller keys. -/
def rankIn (k : α → K) (v : List α) (y : K) : Nat := ((v.map k).toFinset.filter (· < y)).card

section
variable [Arith α]
/-- On the list, comparisons are those of the keys (in particular, no NaN). -/
def KeyedOn (k : α → K) (v : List α) : Prop :=
  ∀ a ∈ v, ∀ b ∈ v, Arith.lt a b = decide (k a < k b) ∧ Arith.eq a b = decide (k a = k b)

variable {k : α → K}

theorem KeyedOn.sub {v w : List α} (h : KeyedOn k v) (hs : ∀ a ∈ w, a ∈ v) : KeyedOn k w :=
  fun a ha b hb => h a (hs a ha) b (hs b hb)

theorem KeyedOn.sortLe {v : List α} (h : KeyedOn k v) {a b : α} (ha : a ∈ v) (hb : b ∈ v) :
    sortLe a b = decide (k a ≤ k b) := by
  have h1 := (h b hb a ha).1
  have h2 := (h a ha a ha).2
  simp only [TD.sortLe, isNan, h1, h2, decide_true, Bool.not_true, Bool.false_and,
    Bool.not_false, Bool.and_true]
  rw [← decide_not]
  congr 1
  simp

theorem insertSorted_mem {a b : α} {L : List α} : b ∈ insertSorted a L ↔ b = a ∨ b ∈ L := by
  induction L with
  | nil => simp [insertSorted]
  | cons c L ih =>
    unfold insertSorted
    split
    · simp
    · simp only [List.mem_cons, ih]; tauto

theorem npSort_mem {b : α} {v : List α} : b ∈ npSort v ↔ b ∈ v := by
  induction v with
  | nil => simp [npSort]
  | cons a v ih =>
    show b ∈ insertSorted a (npSort v) ↔ _
    rw [insertSorted_mem, ih]; simp

theorem insertSorted_sorted {a : α} {L : List α} (h : KeyedOn k (a :: L))
    (hs : L.Pairwise fun x y => k x ≤ k y) : (insertSorted a L).Pairwise fun x y => k x ≤ k y := by
  induction L with
  | nil => simp [insertSorted]
  | cons b L ih =>
    unfold insertSorted
    have hab := h.sortLe (a := a) (b := b) (by simp) (by simp)
    obtain ⟨h1, h2⟩ := List.pairwise_cons.1 hs
    split
    · rename_i hle
      rw [hab, decide_eq_true_eq] at hle
      refine List.pairwise_cons.2 ⟨?_, hs⟩
      intro c hc
      rcases List.mem_cons.1 hc with rfl | hc
      · exact hle
      · exact hle.trans (h1 c hc)
    · rename_i hle
      rw [hab, decide_eq_true_eq, not_le] at hle
      refine List.pairwise_cons.2 ⟨?_, ih (h.sub (by
        intro x hx; rcases List.mem_cons.1 hx with rfl | hx <;> simp [*])) h2⟩
      intro c hc
      rcases insertSorted_mem.1 hc with rfl | hc
      · exact hle.le
      · exact h1 c hc

theorem npSort_sorted {v : List α} (h : KeyedOn k v) :
    (npSort v).Pairwise fun x y => k x ≤ k y := by
  induction v with
  | nil => simp [npSort]
  | cons a v ih =>
    show (insertSorted a (npSort v)).Pairwise _
    refine insertSorted_sorted (h.sub ?_) (ih (h.sub fun b hb => by simp [hb]))
    intro b hb
    rcases List.mem_cons.1 hb with rfl | hb
    · simp
    · simp [npSort_mem.1 hb]

theorem rankLookup_cons (x : α) (r : Nat) (m : List (α × Nat)) (y : α) :
    rankLookup ((x, r) :: m) y = if Arith.eq x y then some r else rankLookup m y := by
  unfold rankLookup
  simp only [List.find?_cons]
  cases Arith.eq x y <;> simp

theorem rankLoop_lookup {v : List α} (h : KeyedOn k v) {y : α} (hy : y ∈ v) (xs : List α) :
    ∀ (p : α) (r : Nat) (m : List (α × Nat)), (∀ a ∈ p :: xs, a ∈ v) →
      (p :: xs).Pairwise (fun x y => k x ≤ k y) →
      rankLookup (rankLoop (some p) r m xs) y =
        if k y ∈ xs.map k then some (r + rankIn k (p :: xs) (k y)) else rankLookup m y := by
  induction xs with
  | nil => intro p r m _ _; simp [rankLoop]
  | cons x xs ih =>
    intro p r m hv hs
    obtain ⟨hp, hs'⟩ := List.pairwise_cons.1 hs
    obtain ⟨hx, -⟩ := List.pairwise_cons.1 hs'
    have hpv := hv p (by simp)
    have hxv := hv x (by simp)
    have hlt := (h p hpv x hxv).1
    have heq := (h x hxv y hy).2
    rw [rankLoop, ih x _ _ (fun a ha => hv a (by simp at ha ⊢; tauto)) hs']
    rw [rankLookup_cons, heq]
    have hle : k p ≤ k x := hp x (by simp)
    -- ranks relative to `p` and to `x`
    have hrank : k x ≤ k y → (if k p < k x then r + 1 else r) + rankIn k (x :: xs) (k y) =
        r + rankIn k (p :: x :: xs) (k y) := by
      intro hxy
      by_cases hpx : k p < k x
      · have hnot : k p ∉ ((x :: xs).map k).toFinset.filter (· < k y) := by
          simp only [Finset.mem_filter, List.mem_toFinset, List.mem_map, not_and]
          rintro ⟨z, hz, e⟩
          exfalso
          rcases List.mem_cons.1 hz with rfl | hz
          · exact absurd e (ne_of_gt hpx)
          · have := hx z hz; rw [e] at this; exact absurd this (not_le.2 hpx)
        have : ((p :: x :: xs).map k).toFinset.filter (· < k y) =
            insert (k p) (((x :: xs).map k).toFinset.filter (· < k y)) := by
          rw [List.map_cons, List.toFinset_cons, Finset.filter_insert, if_pos (hpx.trans_le hxy)]
        simp only [hpx, ↓reduceIte, rankIn]
        rw [this, Finset.card_insert_of_notMem hnot]
        omega
      · have hpe : k p = k x := le_antisymm hle (not_lt.1 hpx)
        simp only [hpx, ↓reduceIte, rankIn]
        congr 3
        ext z
        simp [hpe]
    simp only [hlt, decide_eq_true_eq, List.map_cons, List.mem_cons]
    by_cases hyx : k y ∈ xs.map k
    · simp only [hyx, or_true, ↓reduceIte, Option.some.injEq]
      obtain ⟨z, hz, e⟩ := List.mem_map.1 hyx
      exact hrank (by rw [← e]; exact hx z hz)
    · by_cases hyx' : k y = k x
      · have hr := hrank hyx'.ge
        have h0 : rankIn k (x :: xs) (k y) = 0 := by
          unfold rankIn
          rw [Finset.card_eq_zero, Finset.filter_eq_empty_iff]
          intro z hz
          simp only [List.mem_toFinset, List.mem_map] at hz
          obtain ⟨w, hw, rfl⟩ := hz
          rw [hyx', not_lt]
          rcases List.mem_cons.1 hw with rfl | hw
          · exact le_rfl
          · exact hx w hw
        rw [h0, Nat.add_zero] at hr
        rw [if_neg hyx, if_pos hyx'.symm, if_pos (Or.inl hyx'), hr]
      · simp [hyx, hyx', Ne.symm hyx']

theorem mapM_ok {β γ : Type} {g : β → Except PyErr γ} {h : β → γ} {L : List β}
    (H : ∀ b ∈ L, g b = .ok (h b)) : L.mapM g = .ok (L.map h) := by
  induction L with
  | nil => rfl
  | cons b L ih =>
    rw [List.mapM_cons, H b (by simp), ih (fun c hc => H c (by simp [hc]))]
    rfl

/-- The ranking vector: number of distinct smaller entries. -/
theorem rankingVector_eq {v : List α} (h : KeyedOn k v) :
    rankingVector v = .ok (v.map fun x => rankIn k v (k x)) := by
  unfold rankingVector
  apply mapM_ok
  intro y hy
  have hs := npSort_sorted h
  have hset : ((npSort v).map k).toFinset = (v.map k).toFinset := by
    ext z; simp [npSort_mem]
  cases hsort : npSort v with
  | nil => have := npSort_mem.2 hy; rw [hsort] at this; simp at this
  | cons x xs =>
    have hmem : ∀ a ∈ x :: xs, a ∈ v := fun a ha => npSort_mem.1 (by rw [hsort]; exact ha)
    rw [hsort] at hs hset
    have hlook : rankLookup (rankLoop none 0 [] (x :: xs)) y = some (rankIn k v (k y)) := by
      have e : rankIn k v (k y) = rankIn k (x :: xs) (k y) := by unfold rankIn; rw [hset]
      rw [e]
      show rankLookup (rankLoop (some x) 0 [(x, 0)] xs) y = _
      rw [rankLoop_lookup h hy xs x 0 _ hmem hs, rankLookup_cons, (h x (hmem x (by simp)) y hy).2]
      by_cases hyx : k y ∈ xs.map k
      · simp [hyx]
      · have : k y ∈ (v.map k).toFinset := by simp only [List.mem_toFinset, List.mem_map]; exact ⟨y, hy, rfl⟩
        rw [← hset] at this
        simp only [List.map_cons, List.toFinset_cons, Finset.mem_insert, List.mem_toFinset] at this
        have hyx' : k y = k x := this.resolve_right hyx
        rw [if_neg hyx, if_pos (by simp [hyx'])]
        congr 1
        rw [hyx']
        symm
        unfold rankIn
        rw [Finset.card_eq_zero, Finset.filter_eq_empty_iff]
        intro z hz
        simp only [List.mem_toFinset, List.mem_map] at hz
        obtain ⟨w, hw, rfl⟩ := hz
        rw [not_lt]
        rcases List.mem_cons.1 hw with rfl | hw
        · exact le_rfl
        · exact (List.pairwise_cons.1 hs).1 w hw
    simp only [hlook]

end

variable {k : α → K}

theorem rankIn_lt {v : List α} {x y : K} (hx : x ∈ v.map k) (h : x < y) :
    rankIn k v x < rankIn k v y := by
  apply Finset.card_lt_card
  refine ⟨?_, ?_⟩
  · intro z hz
    simp only [Finset.mem_filter] at hz ⊢
    exact ⟨hz.1, hz.2.trans h⟩
  · intro hsub
    have : x ∈ ((v.map k).toFinset.filter (· < x)) := hsub (by
      rw [Finset.mem_filter, List.mem_toFinset]; exact ⟨hx, h⟩)
    simp at this

/-- Ranks decide the order. -/
theorem rankIn_lt_iff {v : List α} {x y : K} (hx : x ∈ v.map k) (hy : y ∈ v.map k) :
    rankIn k v x < rankIn k v y ↔ x < y := by
  constructor
  · intro h
    by_contra hn
    rcases lt_or_eq_of_le (not_lt.1 hn) with h' | h'
    · exact absurd (rankIn_lt hy h') (by omega)
    · rw [h'] at h; omega
  · exact rankIn_lt hx

theorem rankIn_eq_iff {v : List α} {x y : K} (hx : x ∈ v.map k) (hy : y ∈ v.map k) :
    rankIn k v x = rankIn k v y ↔ x = y := by
  constructor
  · intro h
    rcases lt_trichotomy x y with h' | h' | h'
    · have := rankIn_lt hx h'; omega
    · exact h'
    · have := rankIn_lt hy h'; omega
  · rintro rfl; rfl

/-- Ranks used are exactly `0 .. n-1` for `n` distinct entries. -/
theorem rankIn_range (v : List α) :
    (v.map k).toFinset.image (rankIn k v) = Finset.range (v.map k).toFinset.card := by
  apply Finset.eq_of_subset_of_card_le
  · intro r hr
    simp only [Finset.mem_image, List.mem_toFinset] at hr
    obtain ⟨x, hx, rfl⟩ := hr
    rw [Finset.mem_range]
    apply Finset.card_lt_card
    refine ⟨Finset.filter_subset _ _, ?_⟩
    intro hsub
    have := hsub (by simpa using hx : x ∈ (v.map k).toFinset)
    simp at this
  · rw [Finset.card_range, Finset.card_image_of_injOn]
    intro x hx y hy e
    exact (rankIn_eq_iff (by simpa using hx) (by simpa using hy)).1 e

/-- Two keyed vectors over the same positions have the same ranking iff their
entries are ordered in the same way. -/
theorem ranking_eq_iff {I : Type} {K' : Type} [LinearOrder K'] {β : Type} {k' : β → K'}
    (is : List I) (F : I → α) (G : I → β) :
    ((is.map F).map fun x => rankIn k (is.map F) (k x)) =
      ((is.map G).map fun x => rankIn k' (is.map G) (k' x)) ↔
    ∀ i ∈ is, ∀ j ∈ is, k (F i) < k (F j) ↔ k' (G i) < k' (G j) := by
  constructor
  · intro h i hi j hj
    have hget : ∀ i ∈ is, rankIn k (is.map F) (k (F i)) = rankIn k' (is.map G) (k' (G i)) := by
      intro i hi
      simp only [List.map_map] at h
      exact (List.map_inj_left.1 h) i hi
    have mF : ∀ i ∈ is, k (F i) ∈ (is.map F).map k := fun i hi => by simp; exact ⟨i, hi, rfl⟩
    have mG : ∀ i ∈ is, k' (G i) ∈ (is.map G).map k' := fun i hi => by simp; exact ⟨i, hi, rfl⟩
    rw [← rankIn_lt_iff (mF i hi) (mF j hj), ← rankIn_lt_iff (mG i hi) (mG j hj), hget i hi, hget j hj]
  · intro h
    simp only [List.map_map]
    apply List.map_congr_left
    intro i hi
    simp only [Function.comp_apply, rankIn]
    -- bijection between smaller keys
    have heq : ∀ a ∈ is, ∀ b ∈ is, k (F a) = k (F b) ↔ k' (G a) = k' (G b) := by
      intro a ha b hb
      rw [le_antisymm_iff, le_antisymm_iff, ← not_lt, ← not_lt, ← not_lt, ← not_lt, h a ha b hb,
        h b hb a ha]
    refine Finset.card_bij' (fun x hx => k' (G ((is.find? fun a => k (F a) = x).getD i)))
      (fun y hy => k (F ((is.find? fun a => k' (G a) = y).getD i))) ?_ ?_ ?_ ?_
    · intro x hx
      simp only [Finset.mem_filter, List.mem_toFinset, List.mem_map] at hx
      obtain ⟨⟨_, ⟨a, ha, rfl⟩, rfl⟩, hlt⟩ := hx
      obtain ⟨b, hb⟩ : ∃ b, (is.find? fun b => k (F b) = k (F a)) = some b := by
        rw [← Option.isSome_iff_exists, List.find?_isSome]; exact ⟨a, ha, by simp⟩
      rw [hb]
      have hbm := List.mem_of_find?_eq_some hb
      have hbk : k (F b) = k (F a) := by simpa using List.find?_some hb
      simp only [Option.getD_some, Finset.mem_filter, List.mem_toFinset, List.mem_map]
      exact ⟨⟨_, ⟨b, hbm, rfl⟩, rfl⟩, (h b hbm i hi).1 (hbk ▸ hlt)⟩
    · intro x hx
      simp only [Finset.mem_filter, List.mem_toFinset, List.mem_map] at hx
      obtain ⟨⟨_, ⟨a, ha, rfl⟩, rfl⟩, hlt⟩ := hx
      obtain ⟨b, hb⟩ : ∃ b, (is.find? fun b => k' (G b) = k' (G a)) = some b := by
        rw [← Option.isSome_iff_exists, List.find?_isSome]; exact ⟨a, ha, by simp⟩
      rw [hb]
      have hbm := List.mem_of_find?_eq_some hb
      have hbk : k' (G b) = k' (G a) := by simpa using List.find?_some hb
      simp only [Option.getD_some, Finset.mem_filter, List.mem_toFinset, List.mem_map]
      exact ⟨⟨_, ⟨b, hbm, rfl⟩, rfl⟩, (h b hbm i hi).2 (hbk ▸ hlt)⟩
    · intro x hx
      simp only [Finset.mem_filter, List.mem_toFinset, List.mem_map] at hx
      obtain ⟨⟨_, ⟨a, ha, rfl⟩, rfl⟩, hlt⟩ := hx
      obtain ⟨b, hb⟩ : ∃ b, (is.find? fun b => k (F b) = k (F a)) = some b := by
        rw [← Option.isSome_iff_exists, List.find?_isSome]; exact ⟨a, ha, by simp⟩
      have hbm := List.mem_of_find?_eq_some hb
      have hbk : k (F b) = k (F a) := by simpa using List.find?_some hb
      simp only [hb, Option.getD_some]
      obtain ⟨c, hc⟩ : ∃ c, (is.find? fun c => k' (G c) = k' (G b)) = some c := by
        rw [← Option.isSome_iff_exists, List.find?_isSome]; exact ⟨b, hbm, by simp⟩
      have hcm := List.mem_of_find?_eq_some hc
      have hck : k' (G c) = k' (G b) := by simpa using List.find?_some hc
      simp only [hc, Option.getD_some]
      rw [(heq c hcm b hbm).2 hck, hbk]
    · intro x hx
      simp only [Finset.mem_filter, List.mem_toFinset, List.mem_map] at hx
      obtain ⟨⟨_, ⟨a, ha, rfl⟩, rfl⟩, hlt⟩ := hx
      obtain ⟨b, hb⟩ : ∃ b, (is.find? fun b => k' (G b) = k' (G a)) = some b := by
        rw [← Option.isSome_iff_exists, List.find?_isSome]; exact ⟨a, ha, by simp⟩
      have hbm := List.mem_of_find?_eq_some hb
      have hbk : k' (G b) = k' (G a) := by simpa using List.find?_some hb
      simp only [hb, Option.getD_some]
      obtain ⟨c, hc⟩ : ∃ c, (is.find? fun c => k (F c) = k (F b)) = some c := by
        rw [← Option.isSome_iff_exists, List.find?_isSome]; exact ⟨b, hbm, by simp⟩
      have hcm := List.mem_of_find?_eq_some hc
      have hck : k (F c) = k (F b) := by simpa using List.find?_some hc
      simp only [hc, Option.getD_some]
      rw [(heq c hcm b hbm).1 hck, hbk]

end TD
