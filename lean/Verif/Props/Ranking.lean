import Verif.Lemmas.Rank
import Verif.Model.Float
/-!
# C22: ranking vectors

For floating point numbers with any rounding (nothing is rounded here: the
function only compares).
-/

namespace TD

/-- Comparisons of non-NaN floats are those of their values. -/
theorem keyed_of_not_nan {R : Rounding} {v : Vec (FP R)} (h : ∀ x ∈ v, x ≠ FP.nan) :
    KeyedOn (α := FP R) FP.val v := by
  intro a ha b hb
  have h1 : a ≠ FP.nan := h a ha
  have h2 : b ≠ FP.nan := h b hb
  constructor
  · show FNum.lt a b = _
    cases a <;> cases b <;> first | exact absurd rfl h1 | exact absurd rfl h2 | rfl
  · show FNum.eq a b = _
    cases a <;> cases b <;> first | exact absurd rfl h1 | exact absurd rfl h2 | rfl

/-- **C22.** Without NaN entries the ranking vector exists, and entry `i` is the
number of distinct values smaller than `v[i]`. -/
theorem C22_ranking (R : Rounding) (v : Vec (FP R)) (h : ∀ x ∈ v, x ≠ FP.nan) :
    ∃ rk, rankingVector v = .ok rk ∧ rk.length = v.length ∧
      ∀ (i : Nat) (x : FP R) (r : Nat), v[i]? = some x → rk[i]? = some r →
        r = ((v.map FP.val).toFinset.filter (· < FP.val x)).card := by
  refine ⟨_, rankingVector_eq (keyed_of_not_nan h), by simp, ?_⟩
  intro i x r hx hr
  rw [List.getElem?_map, hx] at hr
  exact (Option.some.inj hr).symm

/-- **C22.** Equal entries get equal ranks, larger entries larger ranks, and the
ranks used are exactly `0 .. k-1` for `k` distinct entries. -/
theorem C22_order (R : Rounding) (v : Vec (FP R)) (h : ∀ x ∈ v, x ≠ FP.nan)
    (rk : List Nat) (hrk : rankingVector v = .ok rk) :
    (∀ (i j : Nat) (x y : FP R) (r q : Nat), v[i]? = some x → v[j]? = some y → rk[i]? = some r → rk[j]? = some q →
      (r < q ↔ Arith.lt x y = true) ∧ (r = q ↔ Arith.eq x y = true)) ∧
    rk.toFinset = Finset.range (v.map FP.val).toFinset.card := by
  rw [rankingVector_eq (keyed_of_not_nan h)] at hrk
  obtain rfl := Except.ok.inj hrk
  constructor
  · intro i j x y r q hx hy hr hq
    rw [List.getElem?_map, hx] at hr
    rw [List.getElem?_map, hy] at hq
    obtain rfl := Option.some.inj hr
    obtain rfl := Option.some.inj hq
    have hxm := List.mem_of_getElem? hx
    have hym := List.mem_of_getElem? hy
    obtain ⟨e1, e2⟩ := keyed_of_not_nan h x hxm y hym
    have hx' : FP.val x ∈ v.map FP.val := List.mem_map.2 ⟨x, hxm, rfl⟩
    have hy' : FP.val y ∈ v.map FP.val := List.mem_map.2 ⟨y, hym, rfl⟩
    rw [e1, e2, decide_eq_true_eq, decide_eq_true_eq]
    exact ⟨rankIn_lt_iff hx' hy', rankIn_eq_iff hx' hy'⟩
  · rw [← rankIn_range (k := FP.val) v]
    ext r
    simp only [List.mem_toFinset, List.mem_map, Finset.mem_image]
    constructor
    · rintro ⟨x, hx, rfl⟩; exact ⟨_, ⟨x, hx, rfl⟩, rfl⟩
    · rintro ⟨_, ⟨x, hx, rfl⟩, rfl⟩; exact ⟨x, hx, rfl⟩

/-- Insertion into a list keeps NaN out of no one's way: every element stays. -/
theorem rankLookup_nan {R : Rounding} (m : List (FP R × Nat)) :
    rankLookup m FP.nan = none := by
  unfold rankLookup
  have : m.find? (fun p => Arith.eq p.1 FP.nan) = none := by
    rw [List.find?_eq_none]
    intro p _
    have : Arith.eq p.1 FP.nan = false := by
      show FNum.eq p.1 FNum.nan = false
      generalize p.1 = x
      cases x <;> rfl
    rw [this]; simp
  rw [this]; rfl

/-- **C22.** With a NaN entry the lookup raises `KeyError`, and only then. -/
theorem C22_nan (R : Rounding) (v : Vec (FP R)) :
    rankingVector v = .error .keyError ↔ FP.nan ∈ v := by
  constructor
  · intro h
    by_contra hno
    have : ∀ x ∈ v, x ≠ FP.nan := by
      rintro x hx rfl; exact hno hx
    rw [rankingVector_eq (keyed_of_not_nan this)] at h
    cases h
  · intro h
    unfold rankingVector
    generalize rankLoop none 0 [] (npSort v) = m
    induction v with
    | nil => simp at h
    | cons x v ih =>
      rw [List.mapM_cons]
      rcases List.mem_cons.1 h with rfl | h
      · rw [rankLookup_nan]; rfl
      · rw [ih h]
        cases rankLookup m x <;> rfl

/-- **C22.** The ranking is unchanged by every transformation of the entries that
preserves their order (also into another float format). -/
theorem C22_monotone_invariance (R R' : Rounding) (v : Vec (FP R)) (g : FP R → FP R')
    (h : ∀ x ∈ v, x ≠ FP.nan) (h' : ∀ x ∈ v, g x ≠ FP.nan)
    (hg : ∀ x ∈ v, ∀ y ∈ v, Arith.lt (g x) (g y) = Arith.lt x y) :
    rankingVector (v.map g) = rankingVector v := by
  have hk := keyed_of_not_nan h
  have hk' : KeyedOn (α := FP R') FP.val (v.map g) := keyed_of_not_nan (by
    intro x hx
    obtain ⟨y, hy, rfl⟩ := List.mem_map.1 hx
    exact h' y hy)
  rw [rankingVector_eq hk, rankingVector_eq hk']
  congr 1
  have := (ranking_eq_iff (k := FP.val) (k' := FP.val) v g (fun x => x)).2 (by
    intro i hi j hj
    have e1 := (hk i hi j hj).1
    have e2 := (hk' (g i) (List.mem_map.2 ⟨i, hi, rfl⟩) (g j) (List.mem_map.2 ⟨j, hj, rfl⟩)).1
    have e3 := hg i hi j hj
    rw [e1, e2] at e3
    simpa using e3)
  simpa only [List.map_id'] using this

/-- **C22.** Ranking a ranking vector changes nothing (if the ranks are
representable, as all integers up to 2^53 are). -/
theorem C22_idempotent (R : Rounding) (v : Vec (FP R)) (rk : List Nat)
    (hrk : rankingVector v = .ok rk) (hrep : ∀ r ∈ rk, R.rnd (r : ℝ) = .fin r) :
    rankingVector (rk.map (Arith.ofNat : Nat → FP R)) = .ok rk := by
  have h : ∀ x ∈ v, x ≠ FP.nan := by
    rintro x hx rfl
    rw [(C22_nan R v).2 hx] at hrk
    cases hrk
  have hk := keyed_of_not_nan h
  have hrk' := hrk
  rw [rankingVector_eq hk] at hrk
  obtain rfl := Except.ok.inj hrk
  rw [← hrk']
  rw [List.map_map]
  have hval : ∀ x ∈ v, ((Arith.ofNat : Nat → FP R) ∘ fun x => rankIn FP.val v (FP.val x)) x =
      FP.fin (rankIn FP.val v (FP.val x) : ℝ) := by
    intro x hx
    exact hrep _ (List.mem_map.2 ⟨x, hx, rfl⟩)
  apply C22_monotone_invariance R R v _ h
  · intro x hx
    rw [hval x hx]
    intro h; cases h
  · intro x hx y hy
    rw [hval x hx, hval y hy, (hk x hx y hy).1]
    show decide ((_ : EReal) < _) = _
    congr 1
    show (((_ : ℝ) : EReal) < ((_ : ℝ) : EReal)) = _
    rw [EReal.coe_lt_coe_iff, Nat.cast_lt]
    exact propext (rankIn_lt_iff (List.mem_map.2 ⟨x, hx, rfl⟩) (List.mem_map.2 ⟨y, hy, rfl⟩))

/-- A vector with ties, and its ranking. -/
example : rankingVector (α := Ex) [Ex.fin 5, Ex.fin 2, Ex.fin 5, Ex.fin 9] = .ok [1, 0, 1, 2] := by
  have hk : KeyedOn (α := Ex) FP.val [Ex.fin 5, Ex.fin 2, Ex.fin 5, Ex.fin 9] :=
    keyed_of_not_nan (R := .exact) (by
      intro x hx; simp only [List.mem_cons, List.not_mem_nil, or_false] at hx
      rcases hx with rfl | rfl | rfl | rfl <;> (intro h; cases h))
  rw [rankingVector_eq hk]
  have e : ∀ x : ℝ, FP.val (Ex.fin x) = (x : EReal) := fun _ => rfl
  have hcard : ∀ y : ℝ, rankIn (α := Ex) FP.val [Ex.fin 5, Ex.fin 2, Ex.fin 5, Ex.fin 9] (y : EReal) =
      (({5, 2, 5, 9} : Finset ℝ).filter (· < y)).card := by
    intro y
    unfold rankIn
    rw [← Finset.card_image_of_injective _ EReal.coe_injective]
    congr 1
    ext z
    simp only [List.map_cons, List.map_nil, e, List.toFinset_cons, List.toFinset_nil, Finset.mem_filter,
      Finset.mem_insert, Finset.mem_image, Finset.mem_singleton]
    constructor
    · rintro ⟨h | h | h | h | h, hlt⟩
      · subst h; exact ⟨5, ⟨by simp, by exact_mod_cast hlt⟩, rfl⟩
      · subst h; exact ⟨2, ⟨by simp, by exact_mod_cast hlt⟩, rfl⟩
      · subst h; exact ⟨5, ⟨by simp, by exact_mod_cast hlt⟩, rfl⟩
      · subst h; exact ⟨9, ⟨by simp, by exact_mod_cast hlt⟩, rfl⟩
      · simp at h
    · rintro ⟨x, ⟨hx, hlt⟩, rfl⟩
      refine ⟨?_, by exact_mod_cast hlt⟩
      rcases hx with rfl | rfl | rfl | rfl <;> simp
  simp only [List.map_cons, List.map_nil, e, hcard]
  norm_num [Finset.filter_insert, Finset.filter_singleton]

end TD
