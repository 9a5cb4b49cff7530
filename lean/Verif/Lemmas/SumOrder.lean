import Verif.Model.Float
import Mathlib.Data.List.Perm.Subperm
/-!
# Sums and dot products in any order
-/

namespace TD

section
variable {R : Rounding} {A : Type}

theorem subperm_left {as bs l : List A} (h : (as ++ bs).Subperm l) : as.Subperm l :=
  (List.sublist_append_left as bs).subperm.trans h

theorem subperm_right {as bs l : List A} (h : (as ++ bs).Subperm l) : bs.Subperm l :=
  (List.sublist_append_right as bs).subperm.trans h

theorem subperm_filterMap {B : Type} (f : A → Option B) {l m : List A} (h : l.Subperm m) :
    (l.filterMap f).Subperm (m.filterMap f) := by
  obtain ⟨l', hp, hs⟩ := h
  exact ⟨l'.filterMap f, hp.filterMap f, hs.filterMap f⟩

theorem range_filterMap (as : List A) : (List.range as.length).filterMap (as[·]?) = as := by
  induction as using List.reverseRecOn with
  | nil => rfl
  | append_singleton as a ih =>
    rw [List.length_append, List.length_singleton, List.range_succ, List.filterMap_append]
    have e : (List.range as.length).filterMap ((as ++ [a])[·]?) = (List.range as.length).filterMap (as[·]?) := by
      refine List.filterMap_congr fun i hi => ?_
      rw [List.getElem?_append_left (List.mem_range.1 hi)]
    rw [e, ih]
    simp

/-- Induction over the order of a sum: the sum of the numbers `g a` is built from partial
sums over lists `l` that together are a rearrangement of `as`. -/
theorem sum_order (as : List A) (g : A → FNum) (P : List A → FNum → Prop) (h0 : as = [] → P [] (R.rnd 0))
    (h1 : ∀ a ∈ as, P [a] (FNum.add R (R.rnd 0) (g a)))
    (h2 : ∀ l m x y, (l ++ m).Subperm as → P l x → P m y → P (l ++ m) (FNum.add R x y)) :
    ∃ l, l.Perm as ∧ P l (FNum.sum R (as.map g)) := by
  unfold FNum.sum
  rcases as.eq_nil_or_concat with rfl | ⟨as', a', rfl⟩
  · exact ⟨[], .refl _, by simpa using h0 rfl⟩
  rw [List.concat_eq_append] at *
  generalize has : as' ++ [a'] = as at *
  have hlen : as.length = as'.length + 1 := by rw [← has]; simp
  have key : ∀ t : SumTree, t.leaves.Subperm (List.range as.length) →
      P (t.leaves.filterMap (as[·]?)) (t.eval R (as.map g)) := by
    intro t
    induction t with
    | leaf i =>
      intro h
      have hi : i < as.length := List.mem_range.1 (h.subset (by simp [SumTree.leaves]))
      have e : (as.map g).getD i (.fin 0) = g as[i] := by
        rw [List.getD_eq_getElem?_getD, List.getElem?_map, List.getElem?_eq_getElem hi]; rfl
      simp only [SumTree.leaves, SumTree.eval, e]
      rw [List.filterMap_cons, List.getElem?_eq_getElem hi]
      exact h1 _ (List.getElem_mem hi)
    | node a b iha ihb =>
      intro h
      simp only [SumTree.leaves, SumTree.eval, List.filterMap_append] at h ⊢
      refine h2 _ _ _ _ ?_ (iha (subperm_left h)) (ihb (subperm_right h))
      have := subperm_filterMap (as[·]?) h
      rwa [List.filterMap_append, range_filterMap] at this
  have hperm := R.order.sum_leaves as'.length
  rw [← hlen] at hperm
  refine ⟨(R.order.sum as.length).leaves.filterMap (as[·]?), ?_, ?_⟩
  · have := hperm.filterMap (as[·]?)
    rwa [range_filterMap] at this
  · have hne : (as.map g).isEmpty = false := by
      cases as with
      | nil => simp at hlen
      | cons => rfl
    rw [hne, List.length_map]
    exact key _ hperm.subperm

/-- Induction over the order of a dot product. -/
theorem dot_order (as : List A) (g h : A → FNum) (P : List A → FNum → Prop) (h0 : as = [] → P [] (R.rnd 0))
    (h1 : ∀ a ∈ as, P [a] (FNum.mul R (g a) (h a)))
    (hf : ∀ a l y, (a :: l).Subperm as → P l y → P (a :: l) (FNum.fma R (g a) (h a) y))
    (h2 : ∀ l m x y, (l ++ m).Subperm as → P l x → P m y → P (l ++ m) (FNum.add R x y)) :
    ∃ l, l.Perm as ∧ P l (FNum.dot R (as.map fun a => (g a, h a))) := by
  unfold FNum.dot
  rcases as.eq_nil_or_concat with rfl | ⟨as', a', rfl⟩
  · exact ⟨[], .refl _, by simpa using h0 rfl⟩
  rw [List.concat_eq_append] at *
  generalize has : as' ++ [a'] = as at *
  have hlen : as.length = as'.length + 1 := by rw [← has]; simp
  have get : ∀ i (hi : i < as.length), (as.map fun a => (g a, h a)).getD i (.fin 0, .fin 0) = (g as[i], h as[i]) := by
    intro i hi
    rw [List.getD_eq_getElem?_getD, List.getElem?_map, List.getElem?_eq_getElem hi]; rfl
  have key : ∀ t : DotTree, t.leaves.Subperm (List.range as.length) →
      P (t.leaves.filterMap (as[·]?)) (t.eval R (as.map fun a => (g a, h a))) := by
    intro t
    induction t with
    | prod i =>
      intro hs
      have hi : i < as.length := List.mem_range.1 (hs.subset (by simp [DotTree.leaves]))
      simp only [DotTree.leaves, DotTree.eval, get i hi]
      rw [List.filterMap_cons, List.getElem?_eq_getElem hi]
      exact h1 _ (List.getElem_mem hi)
    | fused i a ih =>
      intro hs
      have hi : i < as.length := List.mem_range.1 (hs.subset (by simp [DotTree.leaves]))
      simp only [DotTree.leaves, DotTree.eval, get i hi] at hs ⊢
      have hsub := subperm_filterMap (as[·]?) hs
      rw [List.filterMap_cons, List.getElem?_eq_getElem hi, range_filterMap] at hsub
      rw [List.filterMap_cons, List.getElem?_eq_getElem hi]
      exact hf _ _ _ hsub (ih ((List.sublist_cons_self _ _).subperm.trans hs))
    | node a b iha ihb =>
      intro hs
      simp only [DotTree.leaves, DotTree.eval, List.filterMap_append] at hs ⊢
      refine h2 _ _ _ _ ?_ (iha (subperm_left hs)) (ihb (subperm_right hs))
      have := subperm_filterMap (as[·]?) hs
      rwa [List.filterMap_append, range_filterMap] at this
  have hperm := R.order.dot_leaves as'.length
  rw [← hlen] at hperm
  refine ⟨(R.order.dot as.length).leaves.filterMap (as[·]?), ?_, ?_⟩
  · have := hperm.filterMap (as[·]?)
    rwa [range_filterMap] at this
  · have hne : (as.map fun a => (g a, h a)).isEmpty = false := by
      cases as with
      | nil => simp at hlen
      | cons => rfl
    rw [hne, List.length_map]
    exact key _ hperm.subperm

theorem sum_order_fp (as : List A) (g : A → FP R) (P : List A → FP R → Prop) (h0 : as = [] → P [] (FP.fin 0))
    (h1 : ∀ a ∈ as, P [a] (FP.fin 0 +. g a))
    (h2 : ∀ l m x y, (l ++ m).Subperm as → P l x → P m y → P (l ++ m) (x +. y)) :
    ∃ l, l.Perm as ∧ P l (Arith.sum (as.map g)) := by
  refine sum_order (R := R) as g P (fun h => ?_) (fun a ha => ?_) h2
  · rw [R.zero]; exact h0 h
  · rw [R.zero]; exact h1 a ha

theorem dot_order_fp (as : List A) (g h : A → FP R) (P : List A → FP R → Prop) (h0 : as = [] → P [] (FP.fin 0))
    (h1 : ∀ a ∈ as, P [a] (g a *. h a))
    (hf : ∀ a l y, (a :: l).Subperm as → P l y → P (a :: l) (FNum.fma R (g a) (h a) y))
    (h2 : ∀ l m x y, (l ++ m).Subperm as → P l x → P m y → P (l ++ m) (x +. y)) :
    ∃ l, l.Perm as ∧ P l (Arith.dot (as.map g) (as.map h)) := by
  have key : ∀ z : List (FNum × FNum), z = (as.map fun a => (g a, h a)) → ∃ l, l.Perm as ∧ P l (FNum.dot R z) := by
    rintro _ rfl
    exact dot_order (R := R) as g h P (fun h => by rw [R.zero]; exact h0 h) h1 hf h2
  have e : List.zip (as.map g) (as.map h) = as.map fun a => (g a, h a) := by
    induction as with
    | nil => rfl
    | cons a as ih => simp [List.zip_map']
  exact key _ e

/-- A dot product depends only on the products. -/
theorem dot_congr {as bs : List (FNum × FNum)} (hl : as.length = bs.length)
    (h : ∀ (R : Rounding) (i : Nat), FNum.mul R (as.getD i (.fin 0, .fin 0)).1 (as.getD i (.fin 0, .fin 0)).2 =
      FNum.mul R (bs.getD i (.fin 0, .fin 0)).1 (bs.getD i (.fin 0, .fin 0)).2) : FNum.dot R as = FNum.dot R bs := by
  have key : ∀ t : DotTree, t.eval R as = t.eval R bs := by
    intro t
    induction t with
    | prod i => exact h R i
    | fused i a ih => simp only [DotTree.eval, FNum.fma, h .exact i, ih]
    | node a b iha ihb => simp only [DotTree.eval, iha, ihb]
  have he : as.isEmpty = bs.isEmpty := by
    cases as <;> cases bs <;> simp at hl ⊢
  unfold FNum.dot
  rw [he, hl, key]

theorem SumTree.leaves_ne (t : SumTree) : t.leaves ≠ [] := by
  induction t with
  | leaf => simp [SumTree.leaves]
  | node a b iha _ => simp [SumTree.leaves, iha]

theorem DotTree.leaves_ne (t : DotTree) : t.leaves ≠ [] := by
  induction t with
  | prod => simp [DotTree.leaves]
  | fused => simp [DotTree.leaves]
  | node a b iha _ => simp [DotTree.leaves, iha]

/-- The dot product of one pair. -/
theorem dot_single (x y : FNum) : FNum.dot R [(x, y)] = FNum.mul R x y := by
  have hp := R.order.dot_leaves 0
  unfold FNum.dot
  simp only [List.isEmpty_cons, Bool.false_eq_true, ↓reduceIte, List.length_singleton]
  simp only [zero_add, List.range_one] at hp
  have hl := List.perm_singleton.1 hp
  generalize R.order.dot 1 = t at hl
  cases t with
  | prod i =>
    obtain rfl : i = 0 := by simpa [DotTree.leaves] using hl
    rfl
  | fused i a => exact absurd (List.cons.inj hl).2 a.leaves_ne
  | node a b =>
    simp only [DotTree.leaves, List.append_eq_singleton_iff] at hl
    rcases hl with ⟨h, -⟩ | ⟨-, h⟩
    · exact absurd h a.leaves_ne
    · exact absurd h b.leaves_ne

/-- One predicate for all partial sums. -/
theorem sum_induct (v : Vec (FP R)) (P : FP R → Prop) (h0 : v = [] → P (FP.fin 0)) (h1 : ∀ x ∈ v, P (FP.fin 0 +. x))
    (h2 : ∀ x y, P x → P y → P (x +. y)) : P (Arith.sum v) := by
  obtain ⟨-, -, h⟩ := sum_order_fp v id (fun _ => P) h0 h1 fun _ _ x y _ => h2 x y
  rwa [List.map_id] at h

theorem add_nan_left (x : FNum) : FNum.add R .nan x = .nan := by cases x <;> rfl
theorem add_nan_right (x : FNum) : FNum.add R x .nan = .nan := by cases x <;> rfl
theorem mul_nan_left (x : FNum) : FNum.mul R .nan x = .nan := by cases x <;> rfl

/-- A sum with NaN in it is NaN. -/
theorem sum_nan (v : Vec (FP R)) (h : FP.nan ∈ v) : (Arith.sum v : FP R) = FP.nan := by
  obtain ⟨l, hl, hs⟩ := sum_order_fp v id (fun l x => FP.nan ∈ l → x = FP.nan) (fun _ h => by simp at h)
    (fun a _ h => by
      rw [List.mem_singleton] at h
      subst h
      exact add_nan_right _)
    (fun l m x y _ hx hy h => by
      rcases List.mem_append.1 h with h | h
      · rw [hx h]; exact add_nan_left _
      · rw [hy h]; exact add_nan_right _)
  rw [List.map_id] at hs
  exact hs (hl.mem_iff.2 h)

/-- A dot product with NaN in it is NaN. -/
theorem dot_nan {as : List A} {g h : A → FP R} (ha : ∃ a ∈ as, g a = FP.nan) :
    (Arith.dot (as.map g) (as.map h) : FP R) = FP.nan := by
  obtain ⟨l, hl, hs⟩ := dot_order_fp as g h (fun l x => (∃ a ∈ l, g a = FP.nan) → x = FP.nan) (fun _ h => by simp at h)
    (fun a _ ⟨b, hb, e⟩ => by
      rw [List.mem_singleton] at hb
      subst hb
      rw [e]; exact mul_nan_left _)
    (fun a l y _ hy ⟨b, hb, e⟩ => by
      rcases List.mem_cons.1 hb with rfl | hb
      · rw [e]
        exact (congrArg (fun z => FNum.add R z y) (mul_nan_left (R := .exact) (h b))).trans (add_nan_left y)
      · rw [hy ⟨b, hb, e⟩]; exact add_nan_right _)
    (fun l m x y _ hx hy ⟨b, hb, e⟩ => by
      rcases List.mem_append.1 hb with h | h
      · rw [hx ⟨b, h, e⟩]; exact add_nan_left _
      · rw [hy ⟨b, h, e⟩]; exact add_nan_right _)
  obtain ⟨a, ha, e⟩ := ha
  exact hs ⟨a, hl.mem_iff.2 ha, e⟩

end
end TD
