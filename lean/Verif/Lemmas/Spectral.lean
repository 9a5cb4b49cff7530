import Mathlib.Analysis.Matrix.PosDef
import Mathlib.Analysis.SpecificLimits.Basic
import Mathlib.Topology.Algebra.Order.Field
/-! Powers of positive semidefinite matrices. -/

namespace TD.Spectral
open Filter Topology

/-- Iterating a positive semidefinite matrix gives sums of non-negative powers. -/
theorem iterate_eq {n : Type} [Fintype n] [DecidableEq n] {A : Matrix n n ℝ} (hA : A.PosSemidef)
    (v : n → ℝ) : ∃ (lam : n → ℝ) (C : n → n → ℝ), (∀ j, 0 ≤ lam j) ∧
      ∀ (k : Nat) (s : n), ((fun w => A.mulVec w)^[k] v) s = ∑ j, C j s * lam j ^ k := by
  have hH := hA.1
  refine ⟨hH.eigenvalues, fun j s => (hH.eigenvectorBasis.repr (WithLp.toLp 2 v)) j *
    (hH.eigenvectorBasis j) s, fun j => hA.eigenvalues_nonneg j, ?_⟩
  have h0 : v = fun s => ∑ j, (hH.eigenvectorBasis.repr (WithLp.toLp 2 v)) j *
      (hH.eigenvectorBasis j) s := by
    have := hH.eigenvectorBasis.sum_repr (WithLp.toLp 2 v)
    funext s
    have h1 := congrArg (fun u : EuclideanSpace ℝ n => u s) this
    simp only at h1
    rw [← h1]
    simp
  intro k
  induction k with
  | zero =>
    intro s
    simp only [Function.iterate_zero, id_eq, pow_zero, mul_one]
    exact congrFun h0 s
  | succ k ih =>
    intro s
    rw [Function.iterate_succ_apply']
    have hk : ((fun w => A.mulVec w)^[k] v) = ∑ j, ((hH.eigenvectorBasis.repr (WithLp.toLp 2 v)) j *
        hH.eigenvalues j ^ k) • (⇑(hH.eigenvectorBasis j) : n → ℝ) := by
      funext s
      rw [ih s]
      simp only [Finset.sum_apply, Pi.smul_apply, smul_eq_mul]
      exact Finset.sum_congr rfl fun j _ => by ring
    simp only [hk]
    rw [Matrix.mulVec_sum]
    simp only [Matrix.mulVec_smul, hH.mulVec_eigenvectorBasis, Finset.sum_apply, Pi.smul_apply,
      smul_eq_mul]
    exact Finset.sum_congr rfl fun j _ => by rw [pow_succ]; ring

/-- Sums of non-negative powers, grouped by base. -/
theorem group {n T : Type} [Fintype n] (lam : n → ℝ) (C : n → T → ℝ) (s : T) (k : Nat) :
    ∑ j, C j s * lam j ^ k = ∑ x ∈ Finset.univ.image lam,
      (∑ j with lam j = x, C j s) * x ^ k := by
  rw [← Finset.sum_fiberwise_of_maps_to (s := Finset.univ) (t := Finset.univ.image lam) (g := lam)
    (fun j _ => Finset.mem_image_of_mem _ (Finset.mem_univ j))]
  apply Finset.sum_congr rfl
  intro x _
  rw [Finset.sum_mul]
  apply Finset.sum_congr rfl
  intro j hj
  rw [(Finset.mem_filter.1 hj).2]

/-- Either the sequence vanishes from 1 on, or, divided by the powers of some base,
it tends to something other than 0. -/
theorem dominant {n T : Type} [Fintype n] [Finite T] (lam : n → ℝ) (hlam : ∀ j, 0 ≤ lam j)
    (C : n → T → ℝ) :
    (∀ k, 1 ≤ k → ∀ s, ∑ j, C j s * lam j ^ k = 0) ∨
    ∃ mu : ℝ, 0 < mu ∧ ∃ B : T → ℝ, (∃ s, B s ≠ 0) ∧
      ∀ s, Tendsto (fun k : Nat => (∑ j, C j s * lam j ^ k) / mu ^ k) atTop (𝓝 (B s)) := by
  classical
  set A : ℝ → T → ℝ := fun x s => ∑ j with lam j = x, C j s with hA
  set L := (Finset.univ.image lam).filter (fun x => 0 < x ∧ ∃ s, A x s ≠ 0) with hL
  have hnn : ∀ x ∈ Finset.univ.image lam, 0 ≤ x := by
    intro x hx
    obtain ⟨j, -, rfl⟩ := Finset.mem_image.1 hx
    exact hlam j
  have hsum : ∀ (k : Nat), 1 ≤ k → ∀ s, ∑ j, C j s * lam j ^ k = ∑ x ∈ L, A x s * x ^ k := by
    intro k hk s
    rw [group, hL, Finset.sum_filter]
    apply Finset.sum_congr rfl
    intro x hx
    split
    · rfl
    next h =>
      rcases (hnn x hx).lt_or_eq with h0 | h0
      · have : A x s = 0 := by
          by_contra hne
          exact h ⟨h0, s, hne⟩
        show A x s * x ^ k = 0
        rw [this, zero_mul]
      · rw [← h0, zero_pow (by omega), mul_zero]
  rcases L.eq_empty_or_nonempty with he | hne
  · left
    intro k hk s
    rw [hsum k hk s, he, Finset.sum_empty]
  · right
    set mu := L.max' hne with hmu
    have hmem : mu ∈ L := Finset.max'_mem _ _
    have hpos : 0 < mu := (Finset.mem_filter.1 hmem).2.1
    refine ⟨mu, hpos, A mu, (Finset.mem_filter.1 hmem).2.2, ?_⟩
    intro s
    have h1 : Tendsto (fun k : Nat => ∑ x ∈ L, A x s * (x / mu) ^ k) atTop
        (𝓝 (∑ x ∈ L, if x = mu then A mu s else 0)) := by
      apply tendsto_finsetSum
      intro x hx
      by_cases hxm : x = mu
      · rw [if_pos hxm, hxm, div_self hpos.ne']
        simp
      · rw [if_neg hxm]
        have hxlt : x < mu := lt_of_le_of_ne (Finset.le_max' L x hx) hxm
        have hx0 : 0 < x := (Finset.mem_filter.1 hx).2.1
        have := (tendsto_pow_atTop_nhds_zero_of_lt_one (div_nonneg hx0.le hpos.le)
          ((div_lt_one hpos).2 hxlt)).const_mul (A x s)
        rwa [mul_zero] at this
    rw [Finset.sum_ite_eq' L mu, if_pos hmem] at h1
    refine h1.congr' ?_
    filter_upwards [eventually_ge_atTop 1] with k hk
    rw [hsum k hk s, Finset.sum_div]
    apply Finset.sum_congr rfl
    intro x _
    rw [div_pow]; ring

/-- A sum of non-negative powers eventually has constant sign. -/
theorem eventually_sign {n : Type} [Fintype n] (lam : n → ℝ) (hlam : ∀ j, 0 ≤ lam j) (C : n → ℝ) :
    (∀ᶠ k : Nat in atTop, 0 < ∑ j, C j * lam j ^ k) ∨
    (∀ᶠ k : Nat in atTop, ∑ j, C j * lam j ^ k < 0) ∨
    (∀ᶠ k : Nat in atTop, ∑ j, C j * lam j ^ k = 0) := by
  rcases dominant (T := Unit) lam hlam (fun j _ => C j) with h | ⟨mu, hmu, B, ⟨⟨⟩, hB⟩, h⟩
  · right; right
    filter_upwards [eventually_ge_atTop 1] with k hk using h k hk ()
  · have h := h ()
    rcases lt_or_gt_of_ne hB with hneg | hpos
    · right; left
      filter_upwards [h.eventually_lt_const hneg] with k hk
      rcases div_neg_iff.1 hk with ⟨-, h2⟩ | ⟨h1, -⟩
      · exact absurd h2 (not_lt.2 (pow_pos hmu k).le)
      · exact h1
    · left
      filter_upwards [h.eventually_const_lt hpos] with k hk
      rcases div_pos_iff.1 hk with ⟨h1, -⟩ | ⟨-, h2⟩
      · exact h1
      · exact absurd h2 (not_lt.2 (pow_pos hmu k).le)

end TD.Spectral
