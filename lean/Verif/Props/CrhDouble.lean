import Verif.Lemmas.Ninths
import Verif.Lemmas.Finite
import Verif.Props.Timing
import Verif.Props.Rounded
/-!
# Beliefs of CRH above 1

CRH divides a sum over the sources of a claim, which scipy computes from left to right, by the sum over all sources,
which numpy computes in another order.  In floating point the first may be the larger of the two.
-/

namespace TD
open Spec

/-- The order in which numpy adds eight numbers. -/
def numpyEight : SumTree :=
  .node (.node (.node (.leaf 0) (.leaf 1)) (.node (.leaf 2) (.leaf 3)))
    (.node (.node (.leaf 4) (.leaf 5)) (.node (.leaf 6) (.leaf 7)))

/-- There are such orders of addition. -/
theorem numpyEight_exists : ∃ ω : Platform, ω.sum 8 = numpyEight :=
  ⟨{ Platform.seq with
      sum := fun n => if n = 8 then numpyEight else SumTree.seq (n - 1)
      sum_leaves := fun n => by
        by_cases h : n + 1 = 8
        · rw [if_pos h, h]
          exact List.Perm.refl _
        · rw [if_neg h, Nat.add_sub_cancel, SumTree.seq_leaves] }, rfl⟩

/-- Eight sources that make the same claim. -/
def eightTriples : List (Nat × Nat × Nat) :=
  [(0, 0, 0), (1, 0, 0), (2, 0, 0), (3, 0, 0), (4, 0, 0), (5, 0, 0), (6, 0, 0), (7, 0, 0)]

section
variable {ω : Platform}
local notation "D" => FP (Rounding.binary64 ω)

/-- Rounding to multiples of a power of two. -/
theorem rnd_int {n m : ℤ} (j : Nat) (hj : j ≤ 8) (lo : 2 ^ 52 * 2 ^ j ≤ n) (hi : n < 2 ^ 53 * 2 ^ j)
    (h : |2 * n - 2 * (m * 2 ^ j)| < 2 ^ j ∨ (|2 * n - 2 * (m * 2 ^ j)| ≤ 2 ^ j ∧ Even m)) :
    (Rounding.binary64 ω).rnd (n : ℝ) = .fin ((m * 2 ^ j : ℤ) : ℝ) := by
  have hp : (0 : ℝ) < 2 ^ (j : ℤ) := Double.two_zpow_pos _
  have e : |(n : ℝ) / 2 ^ (j : ℤ) - m| = ((|2 * n - 2 * (m * 2 ^ j)| : ℤ) : ℝ) / (2 * 2 ^ (j : ℤ)) := by
    push_cast
    rw [← zpow_natCast, ← mul_sub, abs_mul, abs_of_pos (zero_lt_two (α := ℝ)), mul_div_mul_left _ _ two_ne_zero,
      ← abs_of_pos hp, ← abs_div, abs_of_pos hp, sub_div, mul_div_assoc, div_self hp.ne', mul_one]
  have := rnd_at (ω := ω) (x := (n : ℝ)) (e := (j : ℤ)) (m := m) (by omega) (by omega)
    (by
      rw [add_comm, zpow_add₀ two_ne_zero]
      exact_mod_cast lo)
    (by
      rw [add_comm, zpow_add₀ two_ne_zero]
      exact_mod_cast hi)
    (by
      rw [e]
      rcases h with h | ⟨h, hm⟩
      · left
        rw [div_lt_iff₀ (by positivity)]
        have : ((|2 * n - 2 * (m * 2 ^ j)| : ℤ) : ℝ) < 2 ^ (j : ℤ) := by exact_mod_cast h
        linarith
      · right
        refine ⟨?_, hm⟩
        rw [div_le_iff₀ (by positivity)]
        have : ((|2 * n - 2 * (m * 2 ^ j)| : ℤ) : ℝ) ≤ 2 ^ (j : ℤ) := by exact_mod_cast h
        linarith)
  rw [this]
  push_cast
  rw [zpow_natCast]

theorem add_int {a b n m : ℤ} (j : Nat) (hn : a + b = n) (hj : j ≤ 8) (lo : 2 ^ 52 * 2 ^ j ≤ n) (hi : n < 2 ^ 53 * 2 ^ j)
    {y : ℝ} (hy : ((m * 2 ^ j : ℤ) : ℝ) = y)
    (h : |2 * n - 2 * (m * 2 ^ j)| < 2 ^ j ∨ (|2 * n - 2 * (m * 2 ^ j)| ≤ 2 ^ j ∧ Even m)) :
    ((FP.fin (a : ℝ) : D) +. FP.fin (b : ℝ)) = FP.fin y := by
  have e : (a : ℝ) + b = (n : ℤ) := by rw [← hn]; push_cast; rfl
  rw [FP.add_fin, e, ← hy]
  exact rnd_int (ω := ω) j hj lo hi h

/-- Sum of eight equal numbers in numpy's order. -/
theorem sum_eight (h8 : ω.sum 8 = numpyEight) {x : ℝ} (h1 : Rep (.binary64 ω) x) (h2 : Rep (.binary64 ω) (2 * x))
    (h4 : Rep (.binary64 ω) (4 * x)) (h : Rep (.binary64 ω) (8 * x)) :
    (Arith.sum (List.replicate 8 (FP.fin x)) : D) = FP.fin (8 * x) := by
  have e0 : (FP.fin 0 +. FP.fin x : D) = FP.fin x := by rw [FP.add_fin, zero_add]; exact h1
  have e1 : (FP.fin x +. FP.fin x : D) = FP.fin (2 * x) := by rw [FP.add_fin, ← two_mul]; exact h2
  have e2 : (FP.fin (2 * x) +. FP.fin (2 * x) : D) = FP.fin (4 * x) := by
    rw [FP.add_fin, show 2 * x + 2 * x = 4 * x by ring]; exact h4
  have e4 : (FP.fin (4 * x) +. FP.fin (4 * x) : D) = FP.fin (8 * x) := by
    rw [FP.add_fin, show 4 * x + 4 * x = 8 * x by ring]; exact h
  have key : ∀ z : D, z = FP.fin 0 → (((z +. FP.fin x) +. (z +. FP.fin x)) +. ((z +. FP.fin x) +. (z +. FP.fin x))) +.
      (((z +. FP.fin x) +. (z +. FP.fin x)) +. ((z +. FP.fin x) +. (z +. FP.fin x))) = FP.fin (8 * x) := by
    rintro z rfl
    rw [e0, e1, e2, e4]
  refine Eq.trans ?_ (key ((Rounding.binary64 ω).rnd 0) (Rounding.zero _))
  show (ω.sum 8).eval (.binary64 ω) (List.replicate 8 (FNum.fin x)) = _
  rw [h8]
  rfl

/-- The trust score of all sources. -/
theorem crh_eight_trust : ((FP.fin 4503599627370500 : D) -. Arith.log ((FP.fin 4503599627370500 : D) /. FP.fin (8 * 4503599627370500))) =
    FP.fin 4503599627370502 := by
  have r8 : Rep (.binary64 ω) (1 / 8) := by
    have := rep_two (ω := ω) (a := -3) (by norm_num) (by norm_num)
    rwa [show (2 : ℝ) ^ (-3 : ℤ) = 1 / 8 by norm_num] at this
  have e1 : ((FP.fin 4503599627370500 : D) /. FP.fin (8 * 4503599627370500)) = FP.fin (1 / 8) := by
    rw [FP.div_fin _ (by norm_num), show (4503599627370500 : ℝ) / (8 * 4503599627370500) = 1 / 8 by norm_num]
    exact r8
  have hlog : Real.log (1 / 8) = -(3 * Real.log 2) := by
    rw [show (1 / 8 : ℝ) = (2 ^ 3)⁻¹ by norm_num, Real.log_inv, Real.log_pow]; norm_num
  have l1 := Real.log_two_gt_d9
  have l2 := Real.log_two_lt_d9
  have q1 : Rep (.binary64 ω) (-(33 / 16)) := by
    have := rep64_mul (ω := ω) (k := 33) (e := -4) (by norm_num) (by norm_num) (by norm_num)
    rw [show ((33 : Nat) : ℝ) * 2 ^ (-4 : ℤ) = 33 / 16 by norm_num] at this
    exact rep_neg this
  have q2 : Rep (.binary64 ω) (-(17 / 8)) := by
    have := rep64_mul (ω := ω) (k := 17) (e := -3) (by norm_num) (by norm_num) (by norm_num)
    rw [show ((17 : Nat) : ℝ) * 2 ^ (-3 : ℤ) = 17 / 8 by norm_num] at this
    exact rep_neg this
  obtain ⟨g, hg, -, g1, g2⟩ := faithful_between ((Rounding.binary64 ω).log_faithful (1 / 8) (by norm_num)) q2 q1 (by rw [hlog]; linarith) (by rw [hlog]; linarith)
  have e2 : (Arith.log (FP.fin (1 / 8) : D)) = FP.fin g := by
    show FNum.log (.binary64 ω) (.fin (1 / 8)) = _
    simp only [FNum.log]
    rw [if_neg (by norm_num), if_neg (by norm_num), hg]
    rfl
  rw [e1, e2, fp_sub_fin]
  have := rnd_at (ω := ω) (x := 4503599627370500 - g) (e := 0) (m := 4503599627370502) (by norm_num) (by norm_num)
    (by norm_num; linarith) (by norm_num; linarith) (.inl (by
      rw [zpow_zero, div_one, abs_lt]
      push_cast
      constructor <;> linarith))
  rw [zpow_zero, mul_one] at this
  exact_mod_cast this

/-- The eight trust scores, added from left to right. -/
theorem crh_eight_part : ((((((((FP.fin 0 : D) +. FP.fin 4503599627370502) +. FP.fin 4503599627370502) +. FP.fin 4503599627370502) +.
    FP.fin 4503599627370502) +. FP.fin 4503599627370502) +. FP.fin 4503599627370502) +. FP.fin 4503599627370502) +.
    FP.fin 4503599627370502 = FP.fin 36028797018964024 := by
  have h1 : ((FP.fin 0 : D) +. FP.fin 4503599627370502) = FP.fin 4503599627370502 := by
    have := add_int (ω := ω) (a := 0) (b := 4503599627370502) (m := 4503599627370502) 0 rfl (by norm_num) (by norm_num)
      (by norm_num) rfl (.inl (by norm_num))
    norm_num at this
    exact this
  have h2 : ((FP.fin 4503599627370502 : D) +. FP.fin 4503599627370502) = FP.fin 9007199254741004 :=
    add_int (ω := ω) (a := 4503599627370502) (b := 4503599627370502) (m := 4503599627370502) 1 rfl (by norm_num) (by norm_num)
      (by norm_num) (by norm_num) (.inl (by norm_num))
  have h3 : ((FP.fin 9007199254741004 : D) +. FP.fin 4503599627370502) = FP.fin 13510798882111506 :=
    add_int (ω := ω) (a := 9007199254741004) (b := 4503599627370502) (m := 6755399441055753) 1 rfl (by norm_num) (by norm_num)
      (by norm_num) (by norm_num) (.inl (by norm_num))
  have h4 : ((FP.fin 13510798882111506 : D) +. FP.fin 4503599627370502) = FP.fin 18014398509482008 :=
    add_int (ω := ω) (a := 13510798882111506) (b := 4503599627370502) (m := 4503599627370502) 2 rfl (by norm_num) (by norm_num)
      (by norm_num) (by norm_num) (.inl (by norm_num))
  have h5 : ((FP.fin 18014398509482008 : D) +. FP.fin 4503599627370502) = FP.fin 22517998136852512 :=
    add_int (ω := ω) (a := 18014398509482008) (b := 4503599627370502) (m := 5629499534213128) 2 rfl (by norm_num) (by norm_num)
      (by norm_num) (by norm_num) (.inr ⟨by norm_num, by decide⟩)
  have h6 : ((FP.fin 22517998136852512 : D) +. FP.fin 4503599627370502) = FP.fin 27021597764223016 :=
    add_int (ω := ω) (a := 22517998136852512) (b := 4503599627370502) (m := 6755399441055754) 2 rfl (by norm_num) (by norm_num)
      (by norm_num) (by norm_num) (.inr ⟨by norm_num, by decide⟩)
  have h7 : ((FP.fin 27021597764223016 : D) +. FP.fin 4503599627370502) = FP.fin 31525197391593520 :=
    add_int (ω := ω) (a := 27021597764223016) (b := 4503599627370502) (m := 7881299347898380) 2 rfl (by norm_num) (by norm_num)
      (by norm_num) (by norm_num) (.inr ⟨by norm_num, by decide⟩)
  have h8 : ((FP.fin 31525197391593520 : D) +. FP.fin 4503599627370502) = FP.fin 36028797018964024 :=
    add_int (ω := ω) (a := 31525197391593520) (b := 4503599627370502) (m := 4503599627370503) 3 rfl (by norm_num) (by norm_num)
      (by norm_num) (by norm_num) (.inl (by norm_num))
  rw [h1, h2, h3, h4, h5, h6, h7, h8]

/-- One iteration: whatever belief `x` the claim has, as long as it is not far from 1. -/
theorem crh_eight_body (h8 : ω.sum 8 = numpyEight) (t : Vec D) {x : ℝ} (hx : |x - 1| ≤ 1 / 2) :
    crhBody (FP.fin 4503599627370500 : D) (matsOf eightTriples none) t [FP.fin x] =
      .ok (some ⟨t, List.replicate 8 (FP.fin 4503599627370502), List.replicate 8 (FP.fin 4503599627370502),
        [FP.fin (1 + 2 ^ (-52 : ℤ))]⟩) := by
  have hm : matsOf (α := D) eightTriples none = ⟨8, 1, ⟨8, 1, List.replicate 8 [(0, Arith.ofNat 1)]⟩,
      ⟨1, 1, [[(0, Arith.ofNat 1)]]⟩, ⟨1, 1, [[]]⟩⟩ := rfl
  have rint : ∀ (k : Nat) (e : ℤ), k ≤ 2 ^ 53 → -1074 ≤ e → e ≤ 970 → ∀ y : ℝ, (k : ℝ) * 2 ^ e = y → Rep (.binary64 ω) y :=
    fun k e h1 h2 h3 y hy => hy ▸ rep64_mul h1 h2 h3
  have re : Rep (.binary64 ω) 4503599627370500 := rint 4503599627370500 0 (by norm_num) (by norm_num) (by norm_num) _ (by norm_num)
  have rh : Rep (.binary64 ω) (1 / 2) := rint 1 (-1) (by norm_num) (by norm_num) (by norm_num) _ (by norm_num)
  have r4 : Rep (.binary64 ω) (1 / 4) := rint 1 (-2) (by norm_num) (by norm_num) (by norm_num) _ (by norm_num)
  -- the squared difference
  obtain ⟨d, hd, -, d0, d1⟩ := rnd_between (R := .binary64 ω) (rep_neg rh) rh (abs_le.1 hx).1 (abs_le.1 hx).2
  obtain ⟨q, hq, rq, q0, q1⟩ := rnd_between (R := .binary64 ω) rep_zero r4 (mul_self_nonneg d) (by nlinarith : d * d ≤ 1 / 4)
  have e1 : (FP.fin x -. FP.fin 1 : D) = FP.fin d := by rw [fp_sub_fin]; exact hd
  have e2 : (FP.fin d *. FP.fin d : D) = FP.fin q := by rw [FP.mul_fin]; exact hq
  have e3 : (FP.fin 1 *. FP.fin q : D) = FP.fin q := by rw [FP.mul_fin, one_mul]; exact rq
  have e4 : (FP.fin 0 +. FP.fin q : D) = FP.fin q := by rw [FP.add_fin, zero_add]; exact rq
  have e5 : (FP.fin q *. FP.fin 1 : D) = FP.fin q := by rw [FP.mul_fin, mul_one]; exact rq
  have e6 : (FP.fin 4503599627370500 +. FP.fin q : D) = FP.fin 4503599627370500 := by
    rw [FP.add_fin]
    have := rnd_at (ω := ω) (x := 4503599627370500 + q) (e := 0) (m := 4503599627370500) (by norm_num) (by norm_num)
      (by norm_num; linarith) (by norm_num; linarith) (.inl (by
        rw [zpow_zero, div_one, abs_lt]
        push_cast
        constructor <;> linarith))
    rw [zpow_zero, mul_one] at this
    exact_mod_cast this
  have hz : crhZ (matsOf (α := D) eightTriples none) [FP.fin x] 0 = [FP.fin q] := by
    have : (Arith.ofNat 1 *. ((FP.fin x -. Arith.ofNat 1) *. (FP.fin x -. Arith.ofNat 1)) : D) = FP.fin q := by
      rw [FP.one_eq, e1, e2, e3]
    rw [← this]
    rfl
  have hα : crhAlpha (FP.fin 4503599627370500 : D) (matsOf eightTriples none) [FP.fin x] =
      List.replicate 8 (FP.fin 4503599627370500) := by
    unfold crhAlpha
    rw [hm]
    dsimp only
    rw [← hm, List.map_replicate]
    congr 1
    have hrow : ((List.range 1).map fun j => [((0 : Nat), (Arith.ofNat 1 : D))].foldl
        (fun (acc : D) e => acc +. e.2 *. (crhZ (matsOf eightTriples none) [FP.fin x] e.1).at j) (Arith.ofNat 0)) = [FP.fin q] := by
      simp only [List.range_one, List.map_cons, List.map_nil, List.foldl_cons, List.foldl_nil, hz]
      show [(Arith.ofNat 0 +. Arith.ofNat 1 *. FP.fin q : D)] = _
      rw [FP.one_eq, FP.zero_eq, e3, e4]
    rw [hrow]
    have hdot : (Arith.dot [FP.fin q] (ones 1) : D) = FP.fin q := by
      have h1 : (ones 1 : Vec D) = [FP.fin 1] := by simp [ones, FP.one_eq]
      rw [h1]
      show FNum.dot (.binary64 ω) [(.fin q, .fin 1)] = _
      rw [dot_single]
      exact e5
    rw [hdot, e6]
  have hsum : (Arith.sum (List.replicate 8 (FP.fin 4503599627370500)) : D) = FP.fin (8 * 4503599627370500) :=
    sum_eight h8 re
      (rint 4503599627370500 1 (by norm_num) (by norm_num) (by norm_num) _ (by norm_num))
      (rint 4503599627370500 2 (by norm_num) (by norm_num) (by norm_num) _ (by norm_num))
      (rint 4503599627370500 3 (by norm_num) (by norm_num) (by norm_num) _ (by norm_num))
  have rT : Rep (.binary64 ω) 4503599627370502 := rint 4503599627370502 0 (by norm_num) (by norm_num) (by norm_num) _ (by norm_num)
  have hsumT : (Arith.sum (List.replicate 8 (FP.fin 4503599627370502)) : D) = FP.fin (8 * 4503599627370502) :=
    sum_eight h8 rT
      (rint 4503599627370502 1 (by norm_num) (by norm_num) (by norm_num) _ (by norm_num))
      (rint 4503599627370502 2 (by norm_num) (by norm_num) (by norm_num) _ (by norm_num))
      (rint 4503599627370502 3 (by norm_num) (by norm_num) (by norm_num) _ (by norm_num))
  have e7 : (FP.fin 1 *. FP.fin 4503599627370502 : D) = FP.fin 4503599627370502 := by rw [FP.mul_fin, one_mul]; exact rT
  have hpart : (matsOf (α := D) eightTriples none).sc.T.mulVec (List.replicate 8 (FP.fin 4503599627370502)) =
      [FP.fin 36028797018964024] := by
    have : ∀ o p : D, o = FP.fin 0 → p = FP.fin 4503599627370502 →
        [((((((((o +. p) +. p) +. p) +. p) +. p) +. p) +. p) +. p)] = [(FP.fin 36028797018964024 : D)] := by
      rintro o p rfl rfl
      rw [crh_eight_part]
    rw [← this (Arith.ofNat 0) (Arith.ofNat 1 *. FP.fin 4503599627370502) FP.zero_eq (by rw [FP.one_eq]; exact e7)]
    rfl
  have hdiv : (FP.fin 36028797018964024 /. FP.fin (8 * 4503599627370502) : D) = FP.fin (1 + 2 ^ (-52 : ℤ)) := by
    rw [FP.div_fin _ (by norm_num)]
    have := rnd_at (ω := ω) (x := 36028797018964024 / (8 * 4503599627370502)) (e := -52) (m := 2 ^ 52 + 1) (by norm_num)
      (by norm_num) (by norm_num) (by norm_num) (.inl (by
        rw [abs_lt]
        push_cast
        constructor <;> norm_num))
    rw [this]
    congr 1
    norm_num
  unfold crhBody
  dsimp only
  rw [hα, hsum, List.map_replicate, crh_eight_trust, hpart, hsumT]
  simp only [List.map_cons, List.map_nil, hdiv]

/-- **C76.** Belief scores of CRH above 1 do occur: when numpy adds eight numbers pairwise, as it does, a run of CRH
with `eps = 4503599627370500` on eight sources that agree, with any number of iterations, reports the belief
`1 + 2⁻⁵²`. -/
theorem C76_crh_above (h8 : ω.sum 8 = numpyEight) (clock : Nat → D) (p : Option Prior) (K : Nat) (hK : 1 ≤ K) :
    ∃ (d : Dataset Nat Nat Nat D) (r : Result Nat Nat Nat D),
      Dataset.mk' eightTriples false none = .ok d ∧
      (⟨.crh (Arith.ofNat 4503599627370500), .fixed K, p⟩ : AlgCfg D).run d (K + 1) clock = .ok r ∧
      r.iterations = some K ∧ r.belief = [(0, [(0, FP.fin (1 + 2 ^ (-52 : ℤ)))])] := by
  have hd := (mk'_ok_iff eightTriples (one_ne_zero_fp (R := .binary64 ω)) false none _).2
    ⟨rfl, .inr (by simp [NoRepeats, eightTriples]), by simp [optImpBad]⟩
  have heps : (Arith.ofNat 4503599627370500 : D) = FP.fin 4503599627370500 := by
    have := rep64_nat (ω := ω) (n := 4503599627370500) (by norm_num)
    exact_mod_cast this
  have hsteps : ∀ n j, j + n ≤ K → ∀ (t : Vec D) (x : ℝ), |x - 1| ≤ 1 / 2 → ∃ t' b' L, Steps (.fixed K)
      ((Kind.crh (FP.fin 4503599627370500) : Kind D).body (matsOf eightTriples none)) { itCount := j }
      t [FP.fin x] n { itCount := j + n } t' b' L ∧ (1 ≤ n → b' = [FP.fin (1 + 2 ^ (-52 : ℤ))]) := by
    intro n
    induction n with
    | zero => intro j _ t x _; exact ⟨_, _, [], .refl _ _ _, by simp⟩
    | succ n ih =>
      intro j hj t x hx
      obtain ⟨t', b', L, hL, hb⟩ := ih (j + 1) (by omega) (List.replicate 8 (FP.fin 4503599627370502)) (1 + 2 ^ (-52 : ℤ))
        (by rw [add_sub_cancel_left, abs_of_pos (Double.two_zpow_pos _)]; norm_num)
      rw [show j + 1 + n = j + (n + 1) by omega] at hL
      refine ⟨t', b', _, .cons ?_ (crh_eight_body h8 t hx) rfl hL, fun _ => ?_⟩
      · simp only [IterCfg.finished, Except.ok.injEq, decide_eq_false_iff_not]
        omega
      · cases n with
        | zero =>
          cases hL
          rfl
        | succ n => exact hb (by omega)
  have hinit : (⟨.crh (FP.fin 4503599627370500), .fixed K, p⟩ : AlgCfg D).init (matsOf eightTriples none) =
      .ok (zeros 8, [FP.fin 1]) := by
    have hS : (sources eightTriples).length = 8 := rfl
    show Except.ok (zeros 8, (sourceCounts (matsOf eightTriples none)).map (· /. Arith.ofNat 8)) = _
    rw [sourceCounts_fp eightTriples none C31_binary64 (by rw [hS]; norm_num)]
    have hc : claims eightTriples = [(0, 0)] := rfl
    have h8 : (sourcesOf eightTriples (0, 0)).card = 8 := rfl
    have e8 : (Arith.ofNat 8 : D) = FP.fin 8 := by
      have := rep64_nat (ω := ω) (n := 8) (by norm_num)
      exact_mod_cast this
    rw [hc, e8]
    simp only [List.map_cons, List.map_nil, h8]
    push_cast
    rw [FP.div_fin _ (by norm_num), div_self (by norm_num)]
    rw [show (Rounding.binary64 ω).rnd 1 = FP.fin 1 from Rounding.one _]
  obtain ⟨t', b', L, hL, hb⟩ := hsteps K 0 (by omega) (zeros 8) 1 (by norm_num)
  rw [zero_add] at hL
  obtain rfl := hb hK
  have hex : ∃ out, (⟨.crh (FP.fin 4503599627370500), .fixed K, p⟩ : AlgCfg D).exec (matsOf eightTriples none) (K + 1) {} =
      .ok out ∧ out.iterations = K ∧ out.belief = [FP.fin (1 + 2 ^ (-52 : ℤ))] :=
    ⟨⟨_, _, _, _⟩, (exec_ok_iff _ _ _ _ _).2 ⟨(show (1 : Nat) ≠ 0 by decide), _, _, K, _, _, _, _, hinit, by omega, hL,
      .inl (by simp [IterCfg.finished]), rfl, rfl, rfl⟩, rfl, rfl⟩
  obtain ⟨out, ho, hi, hb⟩ := hex
  rw [heps]
  refine ⟨_, _, hd, by rw [run_eq, ho], by rw [hi]; rfl, ?_⟩
  rw [hb]
  rfl

/-- The hypothesis is met by some order of addition. -/
example : ∃ ω : Platform, ∀ clock : Nat → FP (.binary64 ω), ∃ (d : Dataset Nat Nat Nat (FP (.binary64 ω)))
    (r : Result Nat Nat Nat (FP (.binary64 ω))), Dataset.mk' eightTriples false none = .ok d ∧
      (⟨.crh (Arith.ofNat 4503599627370500), .fixed 20, some .fixed⟩ : AlgCfg _).run d 21 clock = .ok r ∧
      ¬ ScoresAre r NonnegOrNan UnitOrNan := by
  obtain ⟨ω, h8⟩ := numpyEight_exists
  refine ⟨ω, fun clock => ?_⟩
  obtain ⟨d, r, h1, h2, -, h3⟩ := C76_crh_above h8 clock (some .fixed) 20 (by norm_num)
  refine ⟨d, r, h1, h2, fun h => ?_⟩
  have := h.2 0 0 (FP.fin (1 + 2 ^ (-52 : ℤ))) (by rw [h3]; rfl)
  rcases this with h | ⟨y, hy, -, h1⟩
  · cases h
  · rw [← FP.fin_inj.1 hy] at h1
    have := Double.two_zpow_pos (-52)
    linarith

end
end TD
