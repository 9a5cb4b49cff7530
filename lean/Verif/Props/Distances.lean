import Verif.Lemmas.Distance
import Mathlib.Analysis.InnerProductSpace.PiL2
/-!
# C21: distance measures

Exact arithmetic, vectors of any length with finite entries.
-/

namespace TD
open Spec Ex

/-- The numpy vector with entries `v 0, v 1, …`. -/
noncomputable def vec {n : Nat} (v : Fin n → ℝ) : Vec Ex := List.ofFn fun i => fin (v i)

/-- `get_distance` returns the finite number `x`. -/
def DistIs {n : Nat} (m : Measure) (v w : Fin n → ℝ) (x : ℝ) : Prop :=
  getDistance (some m) (vec v) (vec w) = .ok (fin x)

theorem distIs_iff {n : Nat} (m : Measure) (v w : Fin (n + 1) → ℝ) (x : ℝ) :
    DistIs m v w x ↔ x = distance m Finset.univ v w := by
  have h := getDistance_eq (List.nodup_finRange (n + 1)) (by
    intro h; simpa using congrArg List.length h) m v w
  have hu : (List.finRange (n + 1)).toFinset = Finset.univ := by ext i; simp
  rw [hu] at h
  unfold DistIs vec
  rw [List.ofFn_eq_map, List.ofFn_eq_map, h]
  constructor
  · intro e; exact (fin_inj.1 (Except.ok.inj e)).symm
  · rintro rfl; rfl

/-- **C21.** On non-empty vectors every measure yields a finite non-negative
number; it is the documented one. -/
theorem C21_value {n : Nat} (m : Measure) (v w : Fin (n + 1) → ℝ) :
    ∃ x, DistIs m v w x ∧ 0 ≤ x ∧ x = distance m Finset.univ v w := by
  refine ⟨_, (distIs_iff m v w _).2 rfl, ?_, rfl⟩
  cases m with
  | l1 => exact Finset.sum_nonneg fun _ _ => abs_nonneg _
  | l2 => exact Real.sqrt_nonneg _
  | lInf =>
    obtain ⟨i, -, h⟩ := top_mem (F := Finset.univ) (f := fun i : Fin (n + 1) => |v i - w i|) ⟨0, by simp⟩
    show 0 ≤ top _ _
    rw [← h]; exact abs_nonneg _
  | cosine =>
    simp only [distance]
    split
    · exact zero_le_one
    · exact le_max_left _ _

/-- **C21.** Anything that is not a member of the enumeration raises `ValueError`. -/
theorem C21_unknown (v w : Vec Ex) : getDistance none v w = .error .valueError := rfl

/-- **C21.** Symmetry. -/
theorem C21_symmetric {n : Nat} (m : Measure) (v w : Fin (n + 1) → ℝ) (x : ℝ) :
    DistIs m v w x ↔ DistIs m w v x := by
  rw [distIs_iff, distIs_iff]
  have : distance m Finset.univ v w = distance m Finset.univ w v := by
    cases m with
    | l1 => exact Finset.sum_congr rfl fun _ _ => abs_sub_comm _ _
    | l2 =>
      simp only [distance, len2]
      congr 1
      exact Finset.sum_congr rfl fun _ _ => by ring
    | lInf =>
      simp only [distance]
      congr 1
      funext i
      exact abs_sub_comm _ _
    | cosine =>
      simp only [distance, or_comm, mul_comm (len2 Finset.univ v)]
      congr 4
      exact Finset.sum_congr rfl fun _ _ => mul_comm _ _
  rw [this]

theorem len2_eq_zero {A : Type} {F : Finset A} {v : A → ℝ} : len2 F v = 0 ↔ ∀ a ∈ F, v a = 0 := by
  unfold len2
  rw [Real.sqrt_eq_zero (Finset.sum_nonneg fun _ _ => sq_nonneg _),
    Finset.sum_eq_zero_iff_of_nonneg fun _ _ => sq_nonneg _]
  simp

/-- **C21.** L1, L2 and L_INF vanish exactly on equal vectors. -/
theorem C21_zero_iff {n : Nat} (m : Measure) (hm : m ≠ .cosine) (v w : Fin (n + 1) → ℝ) :
    DistIs m v w 0 ↔ v = w := by
  rw [distIs_iff, eq_comm]
  cases m with
  | l1 =>
    simp only [distance]
    rw [Finset.sum_eq_zero_iff_of_nonneg fun _ _ => abs_nonneg _]
    simp only [Finset.mem_univ, abs_eq_zero, sub_eq_zero, forall_true_left]
    exact funext_iff.symm
  | l2 =>
    simp only [distance]
    rw [len2_eq_zero]
    simp only [Finset.mem_univ, sub_eq_zero, forall_true_left]
    exact funext_iff.symm
  | lInf =>
    simp only [distance]
    constructor
    · intro h
      funext i
      have := le_top (F := Finset.univ) (f := fun i : Fin (n + 1) => |v i - w i|) (Finset.mem_univ i)
      rw [h] at this
      have h0 := abs_nonneg (v i - w i)
      exact sub_eq_zero.1 (abs_eq_zero.1 (le_antisymm this h0))
    · rintro rfl
      obtain ⟨i, -, h⟩ := top_mem (F := Finset.univ) (f := fun i : Fin (n + 1) => |v i - v i|) ⟨0, by simp⟩
      rw [← h]; simp
  | cosine => exact absurd rfl hm

/-- **C21.** Triangle inequality for L1, L2 and L_INF. -/
theorem C21_triangle {n : Nat} (m : Measure) (hm : m ≠ .cosine) (u v w : Fin (n + 1) → ℝ)
    (x y z : ℝ) (hx : DistIs m u v x) (hy : DistIs m v w y) (hz : DistIs m u w z) : z ≤ x + y := by
  rw [distIs_iff] at hx hy hz
  subst hx hy hz
  cases m with
  | l1 =>
    simp only [distance]
    rw [← Finset.sum_add_distrib]
    exact Finset.sum_le_sum fun i _ => abs_sub_le _ _ _
  | l2 =>
    have key : ∀ a b : Fin (n + 1) → ℝ, distance .l2 Finset.univ a b =
        dist (WithLp.toLp 2 a : EuclideanSpace ℝ (Fin (n + 1))) (WithLp.toLp 2 b) := by
      intro a b
      rw [EuclideanSpace.dist_eq]
      simp only [distance, len2]
      congr 1
      apply Finset.sum_congr rfl
      intro i _
      rw [Real.dist_eq, sq_abs]
    rw [key, key, key]
    exact dist_triangle _ _ _
  | lInf =>
    simp only [distance]
    obtain ⟨i, -, h⟩ := top_mem (F := Finset.univ) (f := fun i : Fin (n + 1) => |u i - w i|) ⟨0, by simp⟩
    rw [← h]
    refine (abs_sub_le _ (v i) _).trans (add_le_add ?_ ?_)
    · exact le_top (F := Finset.univ) (f := fun i : Fin (n + 1) => |u i - v i|) (Finset.mem_univ i)
    · exact le_top (F := Finset.univ) (f := fun i : Fin (n + 1) => |v i - w i|) (Finset.mem_univ i)
  | cosine => exact absurd rfl hm

/-- **C21.** The cosine distance lies in `[0, 1]`. -/
theorem C21_cosine_range {n : Nat} (v w : Fin (n + 1) → ℝ) (x : ℝ) (h : DistIs .cosine v w x) :
    0 ≤ x ∧ x ≤ 1 := by
  rw [distIs_iff] at h
  subst h
  simp only [distance]
  split
  · norm_num
  · exact ⟨le_max_left _ _, max_le (by norm_num) (min_le_left _ _)⟩

/-- **C21.** It is 1 if either vector is zero. -/
theorem C21_cosine_zero {n : Nat} (v w : Fin (n + 1) → ℝ) (h : v = 0 ∨ w = 0) :
    DistIs .cosine v w 1 := by
  rw [distIs_iff]
  simp only [distance]
  rw [if_pos]
  rcases h with rfl | rfl
  · left; exact len2_eq_zero.2 fun _ _ => rfl
  · right; exact len2_eq_zero.2 fun _ _ => rfl

theorem len2_sq {A : Type} (F : Finset A) (v : A → ℝ) : len2 F v * len2 F v = ∑ a ∈ F, v a * v a := by
  unfold len2
  rw [Real.mul_self_sqrt (Finset.sum_nonneg fun _ _ => sq_nonneg _)]
  exact Finset.sum_congr rfl fun _ _ => by ring

/-- **C21.** It is 0 on equal non-zero vectors. -/
theorem C21_cosine_self {n : Nat} (v : Fin (n + 1) → ℝ) (h : v ≠ 0) : DistIs .cosine v v 0 := by
  rw [distIs_iff]
  have h0 : len2 Finset.univ v ≠ 0 := by
    intro h'; exact h (funext fun i => len2_eq_zero.1 h' i (Finset.mem_univ i))
  simp only [distance]
  rw [if_neg (by simpa using h0), ← len2_sq, div_self (mul_ne_zero h0 h0)]
  simp [clamp]

theorem len2_smul {A : Type} (F : Finset A) {a : ℝ} (ha : 0 < a) (v : A → ℝ) :
    len2 F (fun i => a * v i) = a * len2 F v := by
  unfold len2
  have : ∑ i ∈ F, (a * v i) ^ 2 = a ^ 2 * ∑ i ∈ F, v i ^ 2 := by
    rw [Finset.mul_sum]; exact Finset.sum_congr rfl fun _ _ => by ring
  rw [this, Real.sqrt_mul (sq_nonneg a), Real.sqrt_sq ha.le]

/-- **C21.** It is unchanged by positive scaling of either vector. -/
theorem C21_cosine_scale {n : Nat} (v w : Fin (n + 1) → ℝ) (a b : ℝ) (ha : 0 < a) (hb : 0 < b) (x : ℝ) :
    DistIs .cosine (fun i => a * v i) (fun i => b * w i) x ↔ DistIs .cosine v w x := by
  rw [distIs_iff, distIs_iff]
  have : distance .cosine Finset.univ (fun i => a * v i) (fun i => b * w i) =
      distance .cosine Finset.univ v w := by
    simp only [distance, len2_smul _ ha, len2_smul _ hb, mul_eq_zero, ha.ne', hb.ne', false_or]
    split
    · rfl
    · have hs : ∑ i, a * v i * (b * w i) = (a * b) * ∑ i, v i * w i := by
        rw [Finset.mul_sum]; exact Finset.sum_congr rfl fun _ _ => by ring
      rw [hs, show a * len2 Finset.univ v * (b * len2 Finset.univ w) =
        (a * b) * (len2 Finset.univ v * len2 Finset.univ w) by ring,
        mul_div_mul_left _ _ (mul_pos ha hb).ne']
  rw [this]

/-- **C21.** Empty vectors: the L_INF measure raises `ValueError` (numpy's maximum
of nothing), L1 and L2 are 0, and cosine is 1; no algorithm compares empty vectors, see C09. -/
theorem C21_empty : getDistance (some .lInf) ([] : Vec Ex) [] = .error .valueError ∧
    getDistance (some .l1) ([] : Vec Ex) [] = .ok (Ex.fin 0) ∧ getDistance (some .l2) ([] : Vec Ex) [] = .ok (Ex.fin 0) ∧
    getDistance (some .cosine) ([] : Vec Ex) [] = .ok (Ex.fin 1) := by
  have hs : Arith.sum ([] : Vec Ex) = Ex.fin 0 := by
    have := Ex.sum_eq ([] : List ℝ)
    simpa using this
  have h0 : norm2 ([] : Vec Ex) = Ex.fin 0 := by
    have hd : Arith.dot ([] : Vec Ex) [] = Ex.fin 0 := by
      have := dot_eq ([] : List Nat) (fun _ => 0) (fun _ => 0)
      simpa using this
    rw [norm2, hd, sqrt_eq le_rfl, Real.sqrt_zero]
  have h1 : (vzip Arith.sub ([] : Vec Ex) []) = [] := rfl
  refine ⟨rfl, ?_, ?_, ?_⟩
  · simp [getDistance, h1, hs]
  · simp [getDistance, h1, h0]
  · simp [getDistance, h0]

example : DistIs .l1 ![0, 1, 3] ![1, 1, 1] 3 := by
  rw [distIs_iff]
  simp [distance, Fin.sum_univ_three]
  norm_num

end TD
