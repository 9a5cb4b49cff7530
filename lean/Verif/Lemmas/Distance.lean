import Verif.Spec.Distance
import Verif.Lemmas.Algos
import Mathlib.Tactic.Linarith

namespace TD
open Spec Ex

variable {A : Type} [DecidableEq A]

theorem norm2_eq {as : List A} (hnd : as.Nodup) (v : A → ℝ) :
    norm2 (as.map fun a => fin (v a)) = fin (len2 as.toFinset v) := by
  unfold norm2 len2
  have hs : (as.map fun a => v a * v a).sum = ∑ a ∈ as.toFinset, v a ^ 2 := by
    rw [List.sum_toFinset _ hnd]
    congr 1
    apply List.map_congr_left
    intro a _; ring
  rw [dot_eq, sqrt_eq, hs]
  rw [hs]; exact Finset.sum_nonneg fun a _ => sq_nonneg _

theorem vsub_eq (as : List A) (v w : A → ℝ) :
    vzip Arith.sub (as.map fun a => fin (v a)) (as.map fun a => fin (w a)) =
      as.map fun a => fin (v a - w a) := by
  rw [vzip_map]
  exact List.map_congr_left fun a _ => sub_eq _ _

theorem clip01_eq (x : ℝ) : clip01 (fin x) = fin (clamp x) := by
  unfold clip01 clamp
  simp only [ofNat_eq, Nat.cast_zero, Nat.cast_one, lt_eq, decide_eq_true_eq]
  split_ifs with h1 h2
  · rw [min_eq_right (by linarith), max_eq_left h1.le]
  · rw [min_eq_left h2.le, max_eq_right (by norm_num)]
  · rw [min_eq_right (by linarith), max_eq_right (by linarith)]

/-- `get_distance` of finite vectors. -/
theorem getDistance_eq {as : List A} (hnd : as.Nodup) (hne : as ≠ []) (m : Measure) (v w : A → ℝ) :
    getDistance (some m) (as.map fun a => fin (v a)) (as.map fun a => fin (w a)) =
      .ok (fin (distance m as.toFinset v w)) := by
  cases m with
  | l1 =>
    simp only [getDistance, vsub_eq, List.map_map, distance]
    have : as.map (Arith.abs ∘ fun a => fin (v a - w a)) = (as.map fun a => |v a - w a|).map fin := by
      rw [List.map_map]; exact List.map_congr_left fun a _ => abs_eq _
    rw [this, sum_eq, List.sum_toFinset _ hnd]
  | l2 => simp only [getDistance, vsub_eq, norm2_eq hnd, distance]
  | lInf =>
    simp only [getDistance, vsub_eq, List.map_map, distance]
    have : as.map (Arith.abs ∘ fun a => fin (v a - w a)) = as.map fun a => fin |v a - w a| :=
      List.map_congr_left fun a _ => abs_eq _
    rw [this, npMax_eq hne]
  | cosine =>
    simp only [getDistance, norm2_eq hnd, distance, ofNat_eq, Nat.cast_zero, Nat.cast_one, eq_eq]
    by_cases h : len2 as.toFinset v = 0 ∨ len2 as.toFinset w = 0
    · rw [if_pos h, if_pos (by simpa using h)]
    · rw [if_neg h, if_neg (by simpa using h)]
      rw [not_or] at h
      rw [dot_eq, mul_eq, div_eq _ (mul_ne_zero h.1 h.2), sub_eq, clip01_eq,
        List.sum_toFinset _ hnd]

end TD
