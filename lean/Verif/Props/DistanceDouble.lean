import Verif.Lemmas.DistanceError
import Verif.Props.Distances
import Verif.Props.Experiment
import Verif.Props.Finite
/-!
# C85: distance measures in double precision
-/

namespace TD
open Spec Double

section Any
variable {R : Rounding}

theorem sub_swap (a b : FNum) : FNum.add R b (FNum.neg a) = FNum.neg (FNum.add R a (FNum.neg b)) := by
  have key : ∀ x y : ℝ, R.rnd (y + -x) = (R.rnd (x + -y)).neg := by
    intro x y
    rw [← R.odd]
    congr 1; ring
  cases a with
  | fin x =>
    cases b with
    | fin y => exact key x y
    | _ => rfl
  | _ => cases b <;> rfl

theorem abs_neg_fp (a : FNum) : FNum.abs (FNum.neg a) = FNum.abs a := by
  cases a <;> simp [FNum.neg, FNum.abs]

theorem mul_neg_fp (a b : FNum) : FNum.mul R (FNum.neg a) (FNum.neg b) = FNum.mul R a b := by
  cases a <;> cases b <;> simp [FNum.neg, FNum.mul]
  all_goals
    rename_i x
    rcases lt_trichotomy x 0 with h | h | h
    · simp [h, h.ne, h.le, not_lt.2 h.le]
    · simp [h]
    · simp [h, h.ne', h.le, not_lt.2 h.le]

theorem mul_comm_fp (a b : FNum) : FNum.mul R a b = FNum.mul R b a := by
  cases a <;> cases b <;> simp [FNum.mul, mul_comm]

theorem dot_comm_fp (v w : Vec (FP R)) : (Arith.dot v w : FP R) = Arith.dot w v := by
  have key : ∀ v w : List FNum, FNum.dot R (List.zip v w) = FNum.dot R (List.zip w v) := by
    intro v w
    refine dot_congr (by simp [Nat.min_comm]) fun R i => ?_
    have e : (List.zip w v).getD i (.fin 0, .fin 0) = ((List.zip v w).getD i (.fin 0, .fin 0)).swap := by
      rw [← List.zip_swap, List.getD_eq_getElem?_getD, List.getD_eq_getElem?_getD, List.getElem?_map]
      cases (List.zip v w)[i]? <;> rfl
    rw [e]
    exact mul_comm_fp _ _
  exact key v w

/-- The differences the other way round. -/
theorem diff_swap (v w : List FNum) :
    List.zipWith (fun x y => FNum.add R x (FNum.neg y)) w v =
      (List.zipWith (fun x y => FNum.add R x (FNum.neg y)) v w).map FNum.neg := by
  induction v generalizing w with
  | nil => simp
  | cons a v ih =>
    cases w with
    | nil => simp
    | cons b w => simp only [List.zipWith_cons_cons, List.map_cons, ih, sub_swap a b]

/-- **C85.** The distance measures are symmetric, bit for bit: whatever the vectors contain (also NaN and
infinities) and however the arithmetic rounds. -/
theorem C85_symmetric (m : Option Measure) (v w : Vec (FP R)) : getDistance m v w = getDistance m w v := by
  have e : (vzip Arith.sub w v : Vec (FP R)) = (vzip Arith.sub v w : Vec (FP R)).map (Arith.neg (α := FP R)) := diff_swap v w
  cases m with
  | none => rfl
  | some m =>
    cases m with
    | l1 =>
      simp only [getDistance, e, List.map_map]
      congr 2
      exact List.map_congr_left fun a _ => (abs_neg_fp a).symm
    | lInf =>
      simp only [getDistance, e, List.map_map]
      congr 1
      exact List.map_congr_left fun a _ => (abs_neg_fp a).symm
    | l2 =>
      simp only [getDistance, e, norm2]
      congr 2
      generalize (vzip Arith.sub v w : Vec (FP R)) = d
      have key : ∀ d : List FNum, FNum.dot R (List.zip d d) = FNum.dot R (List.zip (d.map FNum.neg) (d.map FNum.neg)) := by
        intro d
        refine dot_congr (by simp) fun R i => ?_
        have e : (List.zip (d.map FNum.neg) (d.map FNum.neg)).getD i (.fin 0, .fin 0) =
            Prod.map FNum.neg FNum.neg ((List.zip d d).getD i (.fin 0, .fin 0)) := by
          rw [List.zip_map, List.getD_eq_getElem?_getD, List.getD_eq_getElem?_getD, List.getElem?_map]
          cases (List.zip d d)[i]? with
          | none => simp [FNum.neg]
          | some x => rfl
        rw [e]
        exact (mul_neg_fp _ _).symm
      exact key d
    | cosine =>
      have hm : (norm2 v *. norm2 w : FP R) = norm2 w *. norm2 v := mul_comm_fp _ _
      simp only [getDistance, dot_comm_fp v w, hm, Bool.or_comm (Arith.eq (norm2 v) _)]

/-- **C85.** No distance is negative, and a cosine distance is at most 1, however the arithmetic rounds; the
result may be NaN (from NaN or infinite scores). -/
theorem C85_range (m : Option Measure) (v w : Vec (FP R)) (x : FP R) (h : getDistance m v w = .ok x) :
    NonnegOrNan x ∧ (m = some .cosine → UnitOrNan x) := by
  have nabs : ∀ a : FNum, NN (FNum.abs a) := by
    intro a
    cases a with
    | nan => exact .nan
    | pinf => exact .inf
    | ninf => exact .inf
    | fin y => exact .fin _ (abs_nonneg y)
  have all : All (R := R) NN ((vzip Arith.sub v w : Vec (FP R)).map (Arith.abs (α := FP R))) := by
    intro y hy
    obtain ⟨a, -, rfl⟩ := List.mem_map.1 hy
    exact nabs a
  rw [nn_iff]
  cases m with
  | none => cases h
  | some m =>
    cases m with
    | l1 =>
      simp only [getDistance, Except.ok.injEq] at h
      subst h
      exact ⟨(sum_nr _ all).nn, nofun⟩
    | l2 =>
      simp only [getDistance, Except.ok.injEq] at h
      subst h
      exact ⟨nn_sqrt _, nofun⟩
    | lInf => exact ⟨(npMax_nn all h).1, nofun⟩
    | cosine =>
      have hu : UN x := by
        simp only [getDistance] at h
        split at h
        · cases h
          rw [FP.one_eq]
          exact .fin 1 zero_le_one le_rfl
        · cases h
          have key : ∀ y : FNum, UN (clip01 (α := FP R) y) := by
            intro y
            unfold clip01
            rw [FP.zero_eq, FP.one_eq]
            cases y with
            | nan => exact .nan
            | pinf =>
              have h1 : Arith.lt (α := FP R) FNum.pinf (FP.fin 0) = false := by
                show FNum.lt .pinf (.fin 0) = false
                simp [FNum.lt, FNum.toEReal]
              have h2 : Arith.lt (α := FP R) (FP.fin 1) FNum.pinf = true := by
                show FNum.lt (.fin 1) .pinf = true
                exact decide_eq_true (EReal.coe_lt_top 1)
              rw [h1, h2]
              exact .fin 1 zero_le_one le_rfl
            | ninf =>
              have h1 : Arith.lt (α := FP R) FNum.ninf (FP.fin 0) = true := by
                show FNum.lt .ninf (.fin 0) = true
                simp [FNum.lt, FNum.toEReal]
              rw [h1]
              exact .fin 0 le_rfl zero_le_one
            | fin y =>
              have := clip01_fp (R := R) y
              unfold clip01 at this
              rw [FP.zero_eq, FP.one_eq] at this
              exact this ▸ .fin _ (le_max_left _ _) (max_le zero_le_one (min_le_left _ _))
          exact key _
      exact ⟨hu.nn, fun _ => (un_iff x).2 hu⟩

/-- **C85.** L1, L2 and L_INF distances of a vector of finite numbers from itself are exactly 0, however the
arithmetic rounds. -/
theorem C85_self {n : Nat} (m : Measure) (hm : m ≠ .cosine) (v : Fin (n + 1) → ℝ) :
    getDistance (α := FP R) (some m) (List.ofFn fun i => FP.fin (v i)) (List.ofFn fun i => FP.fin (v i)) = .ok (FP.fin 0) := by
  have e : (vzip Arith.sub (List.ofFn fun i => FP.fin (v i)) (List.ofFn fun i => FP.fin (v i)) : Vec (FP R)) =
      List.replicate (n + 1) (FP.fin 0) := by
    unfold vzip
    rw [List.zipWith_self, List.map_ofFn]
    have : (fun x : FP R => x -. x) ∘ (fun i => FP.fin (v i)) = fun _ => FP.fin 0 := by
      funext i
      show R.rnd (v i + -v i) = .fin 0
      rw [add_neg_cancel, R.zero]
    rw [this, List.ofFn_const]
  have a0 : (Arith.abs (FP.fin 0 : FP R)) = FP.fin 0 := by
    show FNum.abs (.fin 0) = .fin 0
    simp [FNum.abs]
  have z0 : (FP.fin 0 +. FP.fin 0 : FP R) = FP.fin 0 := by
    rw [FP.add_fin, add_zero]; exact R.zero
  cases m with
  | l1 =>
    simp only [getDistance, e, List.map_replicate, a0]
    congr 1
    exact sum_induct _ (· = FP.fin 0) (fun _ => rfl) (fun x hx => by rw [(List.mem_replicate.1 hx).2, z0])
      fun x y hx hy => by rw [hx, hy, z0]
  | l2 =>
    simp only [getDistance, e, norm2]
    congr 1
    have z : (Arith.dot (List.replicate (n + 1) (FP.fin 0)) (List.replicate (n + 1) (FP.fin 0)) : FP R) = FP.fin 0 := by
      have r : (List.replicate (n + 1) (FP.fin 0) : Vec (FP R)) = (List.range (n + 1)).map fun _ => FP.fin 0 := by simp
      rw [r]
      obtain ⟨-, -, h⟩ := dot_order_fp (R := R) (List.range (n + 1)) (fun _ => FP.fin 0) (fun _ => FP.fin 0) (fun _ x => x = FP.fin 0)
        (fun _ => rfl) (fun _ _ => by rw [FP.mul_fin, mul_zero]; exact R.zero)
        (fun _ _ y _ hy => by
          rw [hy]
          show R.rnd (0 * 0 + 0) = _
          rw [mul_zero, add_zero]; exact R.zero)
        fun _ _ x y _ hx hy => by rw [hx, hy, z0]
      exact h
    rw [z]
    show FNum.sqrt R (.fin 0) = .fin 0
    simp [FNum.sqrt, R.zero]
  | lInf =>
    simp only [getDistance, e, List.map_replicate, a0]
    obtain ⟨b, -, h, -⟩ := pyMax_fp (R := R) (as := List.range (n + 1)) (by simp) fun _ => 0
    rw [← npMax_fp] at h
    rw [← h]
    congr 1
    rw [List.map_const', List.length_range]
  | cosine => exact absurd rfl hm

end Any

/-- The numpy vector of doubles with entries `v 0, v 1, …`. -/
noncomputable def dvec (ω : Platform) {n : Nat} (v : Fin n → ℝ) : Vec (FP (.binary64 ω)) := List.ofFn fun i => FP.fin (v i)

theorem dvec_eq (ω : Platform) {n : Nat} (v : Fin n → ℝ) : dvec ω v = (List.finRange n).map fun i => FP.fin (v i) := by
  rw [dvec, List.ofFn_eq_map]

theorem sum_finRange {n : Nat} (f : Fin n → ℝ) : ((List.finRange n).map f).sum = ∑ i, f i := by
  have := List.sum_toFinset f (List.nodup_finRange n)
  rw [← this]
  congr 1
  ext i; simp

/-- L1, L2 and L_INF over a list of indices. -/
theorem list_err {A : Type} [DecidableEq A] {as : List A} (hnd : as.Nodup) (hne : as ≠ []) (hn : as.length ≤ 2 ^ 50) (m : Measure)
    (hm : m ≠ .cosine) (v w : A → ℝ) (hv : ∀ a ∈ as, IsDouble (v a) ∧ |v a| ≤ 2 ^ (400 : ℤ))
    (hw : ∀ a ∈ as, IsDouble (w a) ∧ |w a| ≤ 2 ^ (400 : ℤ)) :
    0 ≤ distance m as.toFinset v w ∧ ∃ x, getDistance (α := FP (.binary64 ω)) (some m) (as.map fun a => FP.fin (v a)) (as.map fun a => FP.fin (w a)) = .ok (FP.fin x) ∧
      |x - distance m as.toFinset v w| ≤ ((as.length : ℝ) + 2) * (4 * uu) * distance m as.toFinset v w + kk := by
  have k0 : 0 < kk := two_zpow_pos _
  have hu := uu_pos
  have N0 : (0 : ℝ) ≤ as.length := Nat.cast_nonneg _
  cases m with
  | l1 =>
    obtain ⟨x, h1, h2⟩ := l1_err as hn v w hv hw
    have D0 : 0 ≤ distance .l1 as.toFinset v w := Finset.sum_nonneg fun i _ => abs_nonneg (v i - w i)
    refine ⟨D0, x, h1, ?_⟩
    rw [← List.sum_toFinset _ hnd] at h2
    change |x - distance .l1 as.toFinset v w| ≤ _ * distance .l1 as.toFinset v w at h2
    generalize distance .l1 as.toFinset v w = D at *
    have := mul_nonneg hu.le D0
    generalize (as.length : ℝ) = N at *
    nlinarith
  | l2 =>
    obtain ⟨x, h1, h2⟩ := l2_err as hn v w hv hw
    refine ⟨Real.sqrt_nonneg _, x, h1, ?_⟩
    rw [← List.sum_toFinset _ hnd] at h2
    change |x - distance .l2 as.toFinset v w| ≤ _ * distance .l2 as.toFinset v w + kk at h2
    generalize distance .l2 as.toFinset v w = D at *
    generalize (as.length : ℝ) = N at *
    linarith
  | lInf =>
    obtain ⟨a0, ha0⟩ := List.exists_mem_of_ne_nil _ hne
    obtain ⟨i, hi', hi⟩ := top_mem (F := as.toFinset) (f := fun i => |v i - w i|) ⟨a0, by simpa using ha0⟩
    obtain ⟨x, h1, h2⟩ := lInf_err as hne v w hv hw (distance .lInf as.toFinset v w) ⟨i, by simpa using hi', hi.symm⟩
      fun j hj => le_top (F := as.toFinset) (f := fun i => |v i - w i|) (by simpa using hj)
    have D0 : 0 ≤ distance .lInf as.toFinset v w := by
      change |v i - w i| = distance .lInf as.toFinset v w at hi
      rw [← hi]; exact abs_nonneg _
    refine ⟨D0, x, h1, h2.trans ?_⟩
    generalize distance .lInf as.toFinset v w = D at *
    have := mul_nonneg hu.le D0
    generalize (as.length : ℝ) = N at *
    have := mul_nonneg N0 this
    nlinarith
  | cosine => exact absurd rfl hm

/-- **C85.** Distances of doubles of moderate size (up to `2 ^ 400`) never overflow, and they are accurate:
L1, L2 and L_INF up to a relative error of `(n + 2) 2⁻⁵¹` (`n` entries) and `2⁻⁵⁰⁰`, the cosine distance up to
`(n + 2) 2⁻⁴⁸`, unless a vector is so small that squares underflow. -/
theorem C85_accuracy {n : Nat} (m : Measure) (v w : Fin (n + 1) → ℝ) (hn : n + 1 ≤ 2 ^ 40)
    (hv : ∀ i, IsDouble (v i) ∧ |v i| ≤ 2 ^ (400 : ℤ)) (hw : ∀ i, IsDouble (w i) ∧ |w i| ≤ 2 ^ (400 : ℤ))
    (hcos : m = .cosine → (v = 0 ∨ (2 : ℝ) ^ (-400 : ℤ) ≤ len2 Finset.univ v) ∧
      (w = 0 ∨ (2 : ℝ) ^ (-400 : ℤ) ≤ len2 Finset.univ w)) :
    ∃ x, getDistance (some m) (dvec ω v) (dvec ω w) = .ok (FP.fin x) ∧
      |x - distance m Finset.univ v w| ≤
        if m = .cosine then (((n + 1 : ℕ) : ℝ) + 2) * 2 ^ (-48 : ℤ)
        else (((n + 1 : ℕ) : ℝ) + 2) * 2 ^ (-51 : ℤ) * distance m Finset.univ v w + 2 ^ (-500 : ℤ) := by
  have hlen : (List.finRange (n + 1)).length = n + 1 := List.length_finRange
  have e51 : (2 : ℝ) ^ (-51 : ℤ) = 4 * uu := by
    rw [uu, show (4 : ℝ) = 2 ^ (2 : ℤ) by norm_num, ← zpow_add₀ two_ne_zero]; norm_num
  have e48 : (2 : ℝ) ^ (-48 : ℤ) = 32 * uu := by
    rw [uu, show (32 : ℝ) = 2 ^ (5 : ℤ) by norm_num, ← zpow_add₀ two_ne_zero]; norm_num
  have hk : (2 : ℝ) ^ (-500 : ℤ) = kk := rfl
  have k0 : 0 < kk := two_zpow_pos _
  have hu := uu_pos
  have hn50 : (List.finRange (n + 1)).length ≤ 2 ^ 50 := by rw [hlen]; omega
  rw [dvec_eq, dvec_eq, hk, e51, e48]
  clear hk e51 e48
  by_cases hm : m ≠ .cosine
  · rw [if_neg hm]
    obtain ⟨-, x, h1, h2⟩ := list_err (List.nodup_finRange (n + 1)) (by intro h; simpa using congrArg List.length h) hn50 m hm v w
      (fun i _ => hv i) fun i _ => hw i
    have hu' : (List.finRange (n + 1)).toFinset = Finset.univ := by ext i; simp
    rw [hlen, hu'] at h2
    exact ⟨x, h1, h2⟩
  · rw [not_not] at hm
    subst hm
    rw [if_pos rfl]
    obtain ⟨cv, cw⟩ := hcos rfl
    have l2eq : ∀ f : Fin (n + 1) → ℝ, Real.sqrt ((List.finRange (n + 1)).map fun i => f i ^ 2).sum = len2 Finset.univ f := by
      intro f; rw [sum_finRange]; rfl
    have N0 : (0 : ℝ) ≤ ((n + 1 : ℕ) : ℝ) := Nat.cast_nonneg _
    have pos : 0 ≤ (((n + 1 : ℕ) : ℝ) + 2) * (32 * uu) := by positivity
    have e402 : (2 : ℝ) ^ (400 : ℤ) ≤ 2 ^ (402 : ℤ) := zpow_le_zpow_right₀ one_le_two (by norm_num)
    by_cases hz : v = 0 ∨ w = 0
    · have hd : distance .cosine Finset.univ v w = 1 := ((distIs_iff .cosine v w 1).1 (C21_cosine_zero v w hz)).symm
      obtain ⟨N1, -, -, n1, -, z1⟩ := norm_err (List.finRange (n + 1)) hn50 v fun i _ => (hv i).2.trans e402
      obtain ⟨N2, -, -, n2, -, z2⟩ := norm_err (List.finRange (n + 1)) hn50 w fun i _ => (hw i).2.trans e402
      refine ⟨1, ?_, by rw [hd, sub_self, abs_zero]; exact pos⟩
      simp only [getDistance]
      rw [n1, n2, eq_fin_zero, eq_fin_zero, if_pos, FP.one_eq]
      rcases hz with rfl | rfl
      · simp [z1 (by simp)]
      · simp [z2 (by simp)]
    · rw [not_or] at hz
      have hv' := cv.resolve_left hz.1
      have hw' := cw.resolve_left hz.2
      obtain ⟨x, h1, h2⟩ := cosine_err (List.finRange (n + 1)) (by rw [hlen]; exact hn) v w (fun i _ => (hv i).2) (fun i _ => (hw i).2)
        (by rw [l2eq]; exact hv') (by rw [l2eq]; exact hw')
      refine ⟨x, h1, ?_⟩
      rw [l2eq, l2eq, sum_finRange, hlen] at h2
      have p400 : (0 : ℝ) < 2 ^ (-400 : ℤ) := two_zpow_pos _
      have hd : distance .cosine Finset.univ v w =
          clamp (1 - (∑ i, v i * w i) / (len2 Finset.univ v * len2 Finset.univ w)) := by
        simp only [distance]
        rw [if_neg]
        rintro (h | h)
        · rw [h] at hv'; exact absurd hv' (not_le.2 p400)
        · rw [h] at hw'; exact absurd hw' (not_le.2 p400)
      rw [hd]
      clear hv' hw' p400 hv hw e402 hcos cv cw hd
      generalize ((n + 1 : ℕ) : ℝ) = N at *
      linarith

/-- **C85.** Of doubles of moderate size, L1 and L_INF distances are 0 only for equal vectors. -/
theorem C85_zero {n : Nat} (m : Measure) (hm : m = .l1 ∨ m = .lInf) (v w : Fin (n + 1) → ℝ) (hn : n + 1 ≤ 2 ^ 40)
    (hv : ∀ i, IsDouble (v i) ∧ |v i| ≤ 2 ^ (400 : ℤ)) (hw : ∀ i, IsDouble (w i) ∧ |w i| ≤ 2 ^ (400 : ℤ)) :
    getDistance (some m) (dvec ω v) (dvec ω w) = .ok (FP.fin 0) ↔ v = w := by
  have hlen : (List.finRange (n + 1)).length = n + 1 := List.length_finRange
  have hn50 : (List.finRange (n + 1)).length ≤ 2 ^ 50 := by rw [hlen]; omega
  have hmc : m ≠ .cosine := by rcases hm with rfl | rfl <;> simp
  constructor
  · intro h
    have hd : distance m Finset.univ v w = 0 := by
      have hu := uu_pos
      have hnu := n_uu hn50
      have hu1 := uu_le
      rcases hm with rfl | rfl
      · obtain ⟨x, h1, h2⟩ := l1_err (List.finRange (n + 1)) hn50 v w (fun i _ => hv i) fun i _ => hw i
        rw [← dvec_eq, ← dvec_eq, h] at h1
        obtain rfl : 0 = x := FP.fin_inj.1 (Except.ok.inj h1)
        rw [sum_finRange] at h2
        have D0 : 0 ≤ distance .l1 Finset.univ v w := Finset.sum_nonneg fun i _ => abs_nonneg (v i - w i)
        change |0 - distance .l1 Finset.univ v w| ≤ _ * distance .l1 Finset.univ v w at h2
        rw [zero_sub, abs_neg, abs_of_nonneg D0] at h2
        generalize distance .l1 Finset.univ v w = D at *
        generalize ((List.finRange (n + 1)).length : ℝ) * uu = N at *
        nlinarith
      · obtain ⟨i, -, hi⟩ := top_mem (F := Finset.univ) (f := fun i : Fin (n + 1) => |v i - w i|) ⟨0, by simp⟩
        obtain ⟨x, h1, h2⟩ := lInf_err (List.finRange (n + 1)) (by intro h; simpa using congrArg List.length h) v w
          (fun i _ => hv i) (fun i _ => hw i) (distance .lInf Finset.univ v w) ⟨i, List.mem_finRange i, hi.symm⟩
          fun j _ => le_top (F := Finset.univ) (f := fun i : Fin (n + 1) => |v i - w i|) (Finset.mem_univ j)
        rw [← dvec_eq, ← dvec_eq, h] at h1
        obtain rfl : 0 = x := FP.fin_inj.1 (Except.ok.inj h1)
        have D0 : 0 ≤ distance .lInf Finset.univ v w := by
          change |v i - w i| = distance .lInf Finset.univ v w at hi
          rw [← hi]; exact abs_nonneg _
        rw [zero_sub, abs_neg, abs_of_nonneg D0] at h2
        generalize distance .lInf Finset.univ v w = D at *
        nlinarith
    exact (C21_zero_iff m hmc v w).1 ((distIs_iff m v w 0).2 hd.symm)
  · rintro rfl
    exact C85_self m hmc v

/-- **C85.** Not so L2 and cosine: of the different vectors `[2⁻¹⁰²⁴]` and `[0]` the L2 distance is 0 (the square
underflows), and the cosine distance of `[2⁻¹⁰²⁴]` from itself is 1. -/
theorem C85_underflow : IsDouble ((2 : ℝ) ^ (-1024 : ℤ)) ∧
    getDistance (some .l2) (dvec ω fun _ : Fin 1 => (2 : ℝ) ^ (-1024 : ℤ)) (dvec ω fun _ : Fin 1 => 0) = .ok (FP.fin 0) ∧
    getDistance (some .cosine) (dvec ω fun _ : Fin 1 => (2 : ℝ) ^ (-1024 : ℤ)) (dvec ω fun _ : Fin 1 => (2 : ℝ) ^ (-1024 : ℤ)) = .ok (FP.fin 1) := by
  have r : Rep (.binary64 ω) ((2 : ℝ) ^ (-1024 : ℤ)) := rep_two (by norm_num) (by norm_num)
  have hsq : (2 : ℝ) ^ (-1024 : ℤ) * 2 ^ (-1024 : ℤ) = 2 ^ (-2048 : ℤ) := by
    rw [← zpow_add₀ two_ne_zero]; norm_num
  have hn : (norm2 [FP.fin ((2 : ℝ) ^ (-1024 : ℤ))] : FP (.binary64 ω)) = FP.fin 0 := by
    show FNum.sqrt (.binary64 ω) (FNum.dot (.binary64 ω) [(.fin ((2 : ℝ) ^ (-1024 : ℤ)), .fin ((2 : ℝ) ^ (-1024 : ℤ)))]) = .fin 0
    have : FNum.mul (.binary64 ω) (.fin ((2 : ℝ) ^ (-1024 : ℤ))) (.fin ((2 : ℝ) ^ (-1024 : ℤ))) = .fin 0 := by
      show (Rounding.binary64 ω).rnd ((2 : ℝ) ^ (-1024 : ℤ) * 2 ^ (-1024 : ℤ)) = _
      rw [hsq, show (Rounding.binary64 ω).rnd ((2 : ℝ) ^ (-2048 : ℤ)) = .fin 0 from
        rnd_tiny (Double.two_zpow_pos _).le (zpow_le_zpow_right₀ one_le_two (by norm_num))]
    rw [dot_single, this]
    simp [FNum.sqrt, Rounding.zero]
  refine ⟨((C31_nearest _).1 _ r).1, ?_, ?_⟩
  · have e : (vzip Arith.sub (dvec ω fun _ : Fin 1 => (2 : ℝ) ^ (-1024 : ℤ)) (dvec ω fun _ : Fin 1 => 0) : Vec (FP (.binary64 ω))) =
        [FP.fin ((2 : ℝ) ^ (-1024 : ℤ))] := by
      show [(Rounding.binary64 ω).rnd ((2 : ℝ) ^ (-1024 : ℤ) + -0)] = _
      rw [neg_zero, add_zero, show (Rounding.binary64 ω).rnd ((2 : ℝ) ^ (-1024 : ℤ)) = .fin _ from r]
      rfl
    simp only [getDistance]
    rw [e, hn]
  · have e : (dvec ω fun _ : Fin 1 => (2 : ℝ) ^ (-1024 : ℤ)) = [FP.fin ((2 : ℝ) ^ (-1024 : ℤ))] := rfl
    simp only [getDistance]
    rw [e, hn, eq_fin_zero, if_pos (by simp), FP.one_eq]

section Runs
variable {S V X : Type} [DecidableEq S] [DecidableEq V] [DecidableEq X]

/-- Distances that do not exist or are negative do not occur, so a threshold that is not positive is never met. -/
theorem far_all {R : Rounding} {k : Kind (FP R)} {m : Mats (FP R)} (hm : m.WF) (hS : m.numSources ≠ 0) (hC : m.numClaims ≠ 0)
    (hk : ∀ t b, k.body m t b ≠ .ok none) {th : FP R} (hth : Arith.lt (Arith.ofNat 0) th = false) (ms : Measure) (i : Nat)
    {t b : Vec (FP R)} (hs : Sized m t b) : FarAt (k.body m) (some ms) th t b i := by
  have low : ∀ x : FP R, NonnegOrNan x → Arith.lt x th = false := by
    have key : ∀ x th : FNum, FNum.lt (.fin 0) th = false → NN x → FNum.lt x th = false := by
      intro x th hth hx
      cases hx with
      | nan => rfl
      | inf => cases th <;> simp [FNum.lt, FNum.toEReal]
      | fin y hy =>
        cases th with
        | nan => rfl
        | pinf => exact absurd hth (by simp [FNum.lt, FNum.toEReal])
        | ninf => simp [FNum.lt, FNum.toEReal]
        | fin z =>
          have h1 := of_decide_eq_false hth
          refine decide_eq_false ?_
          simp only [FNum.toEReal, EReal.coe_lt_coe_iff, not_lt] at h1 ⊢
          linarith
    intro x hx
    rw [FP.zero_eq] at hth
    exact key x th hth ((nn_iff x).1 hx)
  induction i generalizing t b with
  | zero =>
    obtain ⟨s, hb⟩ := body_total (k := k) hm hS hC hs
    cases s with
    | none => exact absurd hb (hk t b)
    | some s =>
      obtain ⟨c1, c2⟩ := body_cmp hm hs hb
      obtain ⟨st', hc⟩ := compare_total (it := .conv (some ms) th 0) (by simp) (by simp) (st := {}) c1 c2 hS
      simp only [IterCfg.compare, bind, Except.bind, pure, Except.pure] at hc
      split at hc
      · cases hc
      · rename_i x hx
        exact ⟨x, by simp [distNo, passNo, hb, hx], low x (C85_range _ _ _ x hx).1⟩
  | succ i ih =>
    obtain ⟨s, hb⟩ := body_total (k := k) hm hS hC hs
    cases s with
    | none => exact absurd hb (hk t b)
    | some s =>
      have := ih (body_sized hm hs hb)
      obtain ⟨x, h1, h2⟩ := this
      exact ⟨x, by rw [← h1]; simp [distNo, passNo, hb], h2⟩

/-- **C85.** With a threshold that is not positive (or NaN) Sums, AverageLog and CRH never converge, however the
arithmetic rounds: even if the scores do not change any more, `ConvergenceError` is raised on every non-empty dataset. -/
theorem C85_threshold_zero {R : Rounding} (l : List (S × V × X)) (am : Bool) (f : Option (V → X → X → Option (FP R)))
    (d : Dataset S V X (FP R)) (h : Dataset.mk' l am f = .ok d) (hl : l ≠ []) (c : AlgCfg (FP R))
    (hk : c.kind = .sums ∧ c.priors.isSome ∨ c.kind = .averageLog ∧ c.priors.isSome ∨ ∃ eps, c.kind = .crh eps)
    (ms : Measure) (th : FP R) (hth : Arith.lt (Arith.ofNat 0) th = false) (lim : Int) (hc : c.iterator = .conv (some ms) th lim)
    (fuel : Nat) (hfuel : lim.toNat < fuel) (clock : Nat → FP R) (st : IterState (FP R)) :
    c.run d fuel clock st = .error .convergence := by
  obtain rfl := ((mk'_ok_iff l (fp_one_ne_zero R) am f d).1 h).1
  have hC : (matsOf l f).numClaims ≠ 0 := fun e => hl ((numClaims_zero l f).1 e)
  have hS : (matsOf l f).numSources ≠ 0 := by
    show (sources l).length ≠ 0
    simp [sources_ne hl]
  have hne : ∀ t b, c.kind.body (matsOf l f) t b ≠ .ok none := by
    intro t b hb
    rcases body_none hb with ⟨g, e⟩ | ⟨g, e⟩ | ⟨r, g, t0, e⟩ <;>
      rcases hk with ⟨hk, -⟩ | ⟨hk, -⟩ | ⟨eps, hk⟩ <;> rw [hk] at e <;> cases e
  have hinit : ∃ t0 b0, c.init (matsOf l f) = .ok (t0, b0) := by
    have pr : ∀ p : Option Prior, p.isSome → ∃ b, priorBeliefs p (matsOf l f) = .ok b := by
      intro p hp
      cases p with
      | none => cases hp
      | some p => cases p <;> exact ⟨_, rfl⟩
    unfold AlgCfg.init
    rcases hk with ⟨hk, hp⟩ | ⟨hk, hp⟩ | ⟨eps, hk⟩
    · obtain ⟨b, hb⟩ := pr _ hp
      exact ⟨zeros (matsOf l f).numSources, b, by rw [hk]; simp [hb, bind, Except.bind, pure, Except.pure]⟩
    · obtain ⟨b, hb⟩ := pr _ hp
      exact ⟨zeros (matsOf l f).numSources, b, by rw [hk]; simp [hb, bind, Except.bind, pure, Except.pure]⟩
    · exact ⟨_, _, by rw [hk]⟩
  obtain ⟨t0, b0, hi⟩ := hinit
  have he : c.exec (datasetOf l f).mats fuel st = .error .convergence :=
    (conv_error_iff c (some ms) th lim hc (datasetOf l f) fuel hfuel st).2
      ⟨hC, t0, b0, hi, fun i _ => far_all (matsOf_wf l f) hS hC hne hth ms i (init_sized (matsOf_wf l f) hi)⟩
  unfold AlgCfg.run
  rw [he]
  rfl

theorem steps_trust {α : Type} [Arith α] {it : IterCfg α} {body : Vec α → Vec α → Except PyErr (Option (Step α))} {P : Vec α → Prop}
    (hb : ∀ t b s, body t b = .ok (some s) → P s.trust) {st : IterState α} {t b : Vec α} {n : Nat} {st' t' b' L}
    (h : Steps it body st t b n st' t' b' L) : ∀ e ∈ L, P e.trust := by
  induction h with
  | refl => simp
  | cons _ hbd _ _ ih =>
    intro e he
    rcases List.mem_cons.1 he with rfl | he
    · exact hb _ _ _ hbd
    · exact ih e he

theorem div_isFloat {R : Rounding} (x y : FNum) : IsFloat R (FNum.div R x y) := by
  have z : IsFloat R (FNum.fin 0) := .inr (.inr (.inr ⟨0, rfl, R.zero⟩))
  have i : ∀ a, IsFloat R (FNum.infOf a) := by
    intro a
    unfold FNum.infOf
    split
    · exact .inr (.inl rfl)
    · exact .inr (.inr (.inl rfl))
  cases x <;> cases y <;> simp only [FNum.div] <;> first | exact .inl rfl | exact z | skip
  · split
    · exact .inr (.inr (.inl rfl))
    · exact .inr (.inl rfl)
  · split
    · exact .inr (.inl rfl)
    · exact .inr (.inr (.inl rfl))
  · split
    · split
      · exact .inl rfl
      · exact i _
    · exact isFloat_rnd _

theorem normalise_isFloat {R : Rounding} {v w : Vec (FP R)} (h : normalise v = .ok w) : ∀ x ∈ w, IsFloat R x := by
  simp only [normalise, bind, Except.bind, pure, Except.pure] at h
  split at h
  · cases h
  · cases h
    intro x hx
    obtain ⟨a, -, rfl⟩ := List.mem_map.1 hx
    exact div_isFloat _ _

/-- Trust scores of Sums and AverageLog are floating point numbers. -/
theorem log_isFloat {R : Rounding} {c : AlgCfg (FP R)} (hk : c.kind = .sums ∨ c.kind = .averageLog) {m : Mats (FP R)} {fuel : Nat}
    {st : IterState (FP R)} {r : RunOut (FP R)} (h : c.exec m fuel st = .ok r) :
    ∀ e ∈ r.log, ∀ x ∈ e.trust, IsFloat R x := by
  obtain ⟨-, t0, b0, n, st', t, b, L, hi, -, hs, -, hf, -, hlog⟩ := (exec_ok_iff c m fuel st r).1 h
  intro e he
  rw [hlog, List.mem_append] at he
  rcases he with he | he
  · have hz : t0 = zeros m.numSources := by
      unfold AlgCfg.init at hi
      rcases hk with hk | hk <;> rw [hk] at hi <;> simp only [bind, Except.bind, pure, Except.pure] at hi <;> split at hi <;> cases hi <;> rfl
    unfold initLog at he
    split at he
    · rw [List.mem_singleton] at he
      subst he
      intro x hx
      change x ∈ t0 at hx
      rw [hz] at hx
      obtain ⟨-, rfl⟩ := List.mem_replicate.1 hx
      exact isFloat_rnd _
    · cases he
  · refine steps_trust (P := fun t => ∀ x ∈ t, IsFloat R x) ?_ hs e he
    intro t b s hb
    rcases hk with hk | hk <;> rw [hk] at hb
    · obtain ⟨a, c, h1, h2, h3⟩ := normalise2_ok (g := fun a b => ⟨t, a, a, b⟩) hb
      cases h3
      exact normalise_isFloat h1
    · obtain ⟨a, c, h1, h2, h3⟩ := normalise2_ok (g := fun a b => ⟨a, t, a, b⟩) hb
      cases h3
      exact normalise_isFloat h1

theorem init_log_zero {R : Rounding} {c : AlgCfg (FP R)} (hk : c.kind = .sums ∨ c.kind = .averageLog) (hlog : c.kind.logsInit = true)
    {m : Mats (FP R)} {fuel : Nat} {st : IterState (FP R)} {r : RunOut (FP R)} (h : c.exec m fuel st = .ok r) (e : LogEntry (FP R))
    (he : r.log[0]? = some e) : e.trust = zeros m.numSources := by
  obtain ⟨-, t0, b0, n, st', t, b, L, hi, -, hs, -, hf, -, hl⟩ := (exec_ok_iff c m fuel st r).1 h
  rw [hl, initLog, if_pos hlog] at he
  cases he
  unfold AlgCfg.init at hi
  rcases hk with hk | hk <;> rw [hk] at hi <;> simp only [bind, Except.bind, pure, Except.pure] at hi <;> split at hi <;> cases hi <;> rfl

/-- **C85.** What a distance threshold means for Sums and AverageLog in double precision (L1, L2 or L_INF): of the
exact distance `D` between the trust scores of two successive partial results, up to the relative error
`e = (sources + 2) 2⁻⁵¹` and `2⁻⁵⁰⁰`: the run ends only if `D` is below the threshold, and goes on only if it is not. -/
theorem C85_stopping (l : List (S × V × X)) (am : Bool) (f : Option (V → X → X → Option (FP (.binary64 ω))))
    (d : Dataset S V X (FP (.binary64 ω))) (h : Dataset.mk' l am f = .ok d)
    (hsize : (allSources l).card ^ 2 * (allClaims l).card ≤ 2 ^ 53) (k : Kind (FP (.binary64 ω)))
    (hk : k = .sums ∨ k = .averageLog ∧ ∃ s, 2 ≤ (claimsOf l s).card) (p : Prior)
    (m : Measure) (hm : m ≠ .cosine) (th : ℝ) (lim : Int) (fuel : Nat) (clock : Nat → FP (.binary64 ω)) (st : IterState (FP (.binary64 ω)))
    (rs : List (Result S V X (FP (.binary64 ω))))
    (hr : (⟨k, .conv (some m) (FP.fin th) lim, some p⟩ : AlgCfg (FP (.binary64 ω))).runIter d fuel clock st = .ok rs)
    (i : Nat) (r r' : Result S V X (FP (.binary64 ω))) (hri : rs[i]? = some r) (hri' : rs[i + 1]? = some r') :
    ∃ t t' : S → ℝ, (∀ s ∈ allSources l, r.trust.get? s = some (FP.fin (t s)) ∧ r'.trust.get? s = some (FP.fin (t' s))) ∧
      (i + 2 < rs.length → th ≤ (1 + ((allSources l).card + 2) * 2 ^ (-51 : ℤ)) * distance m (allSources l) t t' + 2 ^ (-500 : ℤ)) ∧
      (i + 2 = rs.length → (1 - ((allSources l).card + 2) * 2 ^ (-51 : ℤ)) * distance m (allSources l) t t' < th + 2 ^ (-500 : ℤ)) := by
  obtain rfl := ((mk'_ok_iff l (fp_one_ne_zero _) am f d).1 h).1
  have hk' : k = .sums ∨ k = .averageLog := by rcases hk with h | ⟨h, -⟩ <;> simp [h]
  have hlog : k.logsInit = true := by rcases hk' with rfl | rfl <;> rfl
  have husums : k ≠ .unboundedSums := by rcases hk' with rfl | rfl <;> simp
  set c : AlgCfg (FP (.binary64 ω)) := ⟨k, .conv (some m) (FP.fin th) lim, some p⟩ with hc
  obtain ⟨-, q1, q2⟩ := conv_partial_results (fp_one_ne_zero _) l am f _ h c husums ((logsInit_eq k).symm.trans hlog) (some m) (FP.fin th) lim rfl fuel clock st rs hr
  -- the trust scores are doubles in [0, 1]
  have hnum : ∀ (j : Nat) (u : Result S V X (FP (.binary64 ω))), rs[j]? = some u → ∃ t : S → ℝ,
      (∀ s ∈ allSources l, u.trust.get? s = some (FP.fin (t s))) ∧ u.trust.map Prod.snd = (sources l).map (fun s => FP.fin (t s)) ∧
      ∀ s ∈ sources l, IsDouble (t s) ∧ |t s| ≤ 2 ^ (400 : ℤ) := by
    intro j u hj
    have hr2 := hr
    rw [runIter_eq] at hr2
    cases he : c.exec (matsOf l f) fuel st with
    | error e => rw [he] at hr2; cases hr2
    | ok out =>
      rw [he] at hr2
      have hrs := Except.ok.inj hr2
      have hu := List.mem_of_getElem? hj
      rw [← hrs] at hu hj
      obtain ⟨q, hq, hqu⟩ := List.mem_map.1 hu
      have hqm : q.2 ∈ out.log := by
        rw [← enum_map_snd out.log]
        exact List.mem_map_of_mem hq
      obtain ⟨-, hsz⟩ := exec_sized (matsOf_wf l f) he
      obtain ⟨F, hF⟩ := exists_map (nodup_sources l) (hsz q.2 hqm).1
      have hfl := log_isFloat hk' he q.2 hqm
      have hget : ∀ s ∈ allSources l, u.trust.get? s = some (F s) := by
        intro s hs
        rw [← hqu, hF, trust_resultOf, if_pos ((mem_allSources l).1 hs)]
      have hfin : ∀ s ∈ allSources l, ∃ y, F s = FP.fin y ∧ 0 ≤ y ∧ y ≤ 1 := by
        intro s hs
        cases j with
        | zero =>
          have hz := init_log_zero hk' hlog he
          rw [List.getElem?_map, enum_getElem?] at hj
          cases h0 : out.log[0]? with
          | none => rw [h0] at hj; simp at hj
          | some e0 =>
            rw [h0] at hj
            simp only [Option.map_some, Option.some.injEq] at hj
            have e2 := hget s hs
            have hz' := hz e0 h0
            have hzm : e0.trust = (sources l).map fun _ => (FP.fin 0 : FP (.binary64 ω)) := by
              rw [hz', zeros, FP.zero_eq, List.map_const']
              rfl
            rw [← hj, hzm, trust_resultOf, if_pos ((mem_allSources l).1 hs)] at e2
            exact ⟨0, (Option.some.inj e2).symm, le_rfl, zero_le_one⟩
        | succ j =>
          have hju : rs[j + 1]? = some u := by rw [← hrs]; exact hj
          have hW : Within u (fun y => 0 ≤ y ∧ y ≤ 1) := by
            rcases hk with rfl | ⟨rfl, hmul⟩
            · exact (C31_sums_iter C31_binary64 (by norm_num) l am f _ h hsize _ p fuel clock st rs hr (j + 1) (by omega) u hju).2.1
            · have hit : u.iterations = some (j + 1) := by
                rw [List.getElem?_map, enum_getElem?] at hj
                cases h0 : out.log[j + 1]? with
                | none => rw [h0] at hj; simp at hj
                | some e0 =>
                  rw [h0] at hj
                  simp only [Option.map_some, Option.some.injEq] at hj
                  obtain ⟨_, _, _, _, hl1, _⟩ := log_of_exec he
                  rw [← hj]
                  exact congrArg some ((hl1 hlog).2 _ _ h0)
              exact ((C83_average_log l am f _ h hsize hmul _ p fuel clock st).2.1 rs hr u (List.mem_of_getElem? hju) _ hit (by omega)).2.1
          exact hW.1 s _ (hget s hs)
      choose! t ht using hfin
      refine ⟨t, fun s hs => by rw [hget s hs, (ht s hs).1], ?_, ?_⟩
      · have e1 : u.trust.map Prod.snd = (sources l).map F := by
          rw [← hqu, hF]
          show ((sources l).zip ((sources l).map F)).map Prod.snd = _
          rw [List.map_snd_zip (by simp)]
        rw [e1]
        exact List.map_congr_left fun s hs => (ht s ((mem_allSources l).2 hs)).1
      · intro s hs
        obtain ⟨e, y0, y1⟩ := ht s ((mem_allSources l).2 hs)
        constructor
        · have := hfl (F s) (by rw [hF]; exact List.mem_map_of_mem hs)
          rw [e] at this
          rcases this with h | h | h | ⟨y, h, hy⟩
          · cases h
          · cases h
          · cases h
          · cases h
            exact ((C31_nearest _).1 _ hy).1
        · rw [abs_of_nonneg y0]
          exact y1.trans (one_le_zpow₀ one_le_two (by norm_num))
  obtain ⟨t, ht1, ht2, ht3⟩ := hnum i r hri
  obtain ⟨t', ht1', ht2', ht3'⟩ := hnum (i + 1) r' hri'
  refine ⟨t, t', fun s hs => ⟨ht1 s hs, ht1' s hs⟩, ?_⟩
  have hl : l ≠ [] := by
    rintro rfl
    rw [runIter_eq, exec_empty _ _ _ _ (by rfl)] at hr
    cases hr
  have hcard : (sources l).length = (allSources l).card := by
    rw [← sources_toFinset l, List.toFinset_card_of_nodup (nodup_sources l)]
  have hn : (sources l).length ≤ 2 ^ 50 := by
    rw [hcard]
    have h1 : 0 < (allClaims l).card := Finset.card_pos.2 (allClaims_nonempty hl)
    by_contra hc
    push Not at hc
    have : (2 ^ 50) ^ 2 * 1 ≤ (allSources l).card ^ 2 * (allClaims l).card :=
      Nat.mul_le_mul (Nat.pow_le_pow_left hc.le 2) h1
    omega
  obtain ⟨D0, x, hx, herr⟩ := list_err (nodup_sources l) (sources_ne hl) hn m hm t t' ht3 ht3'
  rw [sources_toFinset, hcard] at herr
  have e51 : (2 : ℝ) ^ (-51 : ℤ) = 4 * uu := by
    rw [uu, show (4 : ℝ) = 2 ^ (2 : ℤ) by norm_num, ← zpow_add₀ two_ne_zero]; norm_num
  have hkk : (2 : ℝ) ^ (-500 : ℤ) = kk := rfl
  have hdist : ∀ y, DistanceOf (some m) (r.trust.map Prod.snd) (r'.trust.map Prod.snd) y → y = FP.fin x := by
    intro y hy
    have : getDistance (some m) (r.trust.map Prod.snd) (r'.trust.map Prod.snd) = .ok y := by
      rcases hy with hy | hy
      · exact hy
      · rw [C85_symmetric]; exact hy
    rw [ht2, ht2', hx] at this
    exact (Except.ok.inj this).symm
  rw [e51, hkk]
  clear e51 hkk
  generalize distance m (allSources l) t t' = D at *
  generalize ((allSources l).card : ℝ) = N at *
  obtain ⟨lo, hi⟩ := abs_le.1 herr
  constructor
  · intro hi2
    obtain ⟨y, hy, hfar⟩ := q1 i r r' hri hri'
    rw [hdist y hy, FP.lt_fin] at hfar
    have := of_decide_eq_false (hfar hi2)
    linarith
  · intro hi2
    rcases q2 with ⟨j, u, u', y, hj, hu, hu', hy, hlt⟩ | ⟨a, -, hb⟩
    · obtain rfl : j = i := by omega
      rw [hri] at hu
      rw [hri'] at hu'
      cases hu; cases hu'
      rw [hdist y hy, FP.lt_fin] at hlt
      have := of_decide_eq_true hlt
      linarith
    · exfalso
      have hb' : CannotContinue l a k := hb
      rcases hk' with rfl | rfl <;> exact hb'

/-- One pass of Sums over a single claim. -/
theorem single_body (t : Vec (FP (.binary64 ω))) {y : ℝ} (hy : 0 < y) (hr : Rep (.binary64 ω) y) :
    (Kind.sums : Kind (FP (.binary64 ω))).body (matsOf [((0 : Nat), (0 : Nat), (0 : Nat))] none) t [FP.fin y] =
      .ok (some ⟨t, [FP.fin 1], [FP.fin 1], [FP.fin 1]⟩) := by
  have hm : matsOf (α := FP (.binary64 ω)) [((0 : Nat), (0 : Nat), (0 : Nat))] none = ⟨1, 1, ⟨1, 1, [[(0, Arith.ofNat 1)]]⟩, ⟨1, 1, [[(0, Arith.ofNat 1)]]⟩, ⟨1, 1, [[]]⟩⟩ := rfl
  have e1 : (Arith.ofNat 0 +. Arith.ofNat 1 *. FP.fin y : FP (.binary64 ω)) = FP.fin y := by
    rw [FP.one_eq, FP.zero_eq, FP.mul_fin, one_mul, show (Rounding.binary64 ω).rnd y = FP.fin y from hr, FP.add_fin, zero_add]
    exact hr
  have e2 : (FP.fin y /. FP.fin y : FP (.binary64 ω)) = FP.fin 1 := by
    rw [FP.div_fin _ hy.ne', div_self hy.ne']
    exact Rounding.one _
  rw [hm]
  show (do
    let a ← normalise [(Arith.ofNat 0 +. Arith.ofNat 1 *. FP.fin y : FP (.binary64 ω))]
    let b ← normalise [(Arith.ofNat 0 +. Arith.ofNat 1 *. (Arith.ofNat 0 +. Arith.ofNat 1 *. FP.fin y) : FP (.binary64 ω))]
    return some (⟨t, a, a, b⟩ : Step (FP (.binary64 ω)))) = _
  rw [e1, e1]
  simp only [normalise, pyMax, List.foldl_nil, List.map_cons, List.map_nil, bind, Except.bind, pure, Except.pure, e2]

/-- The hypotheses of `C85_stopping` hold for a run of Sums that converges: three partial results. -/
example (clock : Nat → FP (.binary64 ω)) : ∃ (d : Dataset Nat Nat Nat (FP (.binary64 ω))) (rs : List (Result Nat Nat Nat (FP (.binary64 ω)))),
    Dataset.mk' [(0, 0, 0)] false none = .ok d ∧
    (⟨.sums, .conv (some .l2) (FP.fin (1 / 2)) 5, some .fixed⟩ : AlgCfg (FP (.binary64 ω))).runIter d 100 clock = .ok rs ∧ rs.length = 3 := by
  have hd := (mk'_ok_iff [(0, 0, 0)] (one_ne_zero_fp (R := .binary64 ω)) false none _).2
    ⟨rfl, .inr (by simp [NoRepeats]), by simp [optImpBad]⟩
  have hhalf : Rep (.binary64 ω) (1 / 2) := by
    have := rep64_pow (ω := ω) (e := -1) (by norm_num) (by norm_num)
    rw [zpow_neg_one] at this
    rwa [one_div]
  have d1 : getDistance (some .l2) [(FP.fin 0 : FP (.binary64 ω))] [FP.fin 1] = .ok (FP.fin 1) := by
    have e1 : (FP.fin 0 -. FP.fin 1 : FP (.binary64 ω)) = FP.fin (-1) := by
      show (Rounding.binary64 ω).rnd (0 + -1) = .fin (-1)
      rw [zero_add]
      have := (Rounding.binary64 ω).odd 1
      rw [Rounding.one] at this
      exact this
    have e2 : (FP.fin (-1) *. FP.fin (-1) : FP (.binary64 ω)) = FP.fin 1 := by
      rw [FP.mul_fin, neg_mul_neg, one_mul]
      exact Rounding.one _
    have e3 : (Arith.dot [(FP.fin (-1) : FP (.binary64 ω))] [FP.fin (-1)] : FP (.binary64 ω)) = FP.fin 1 := by
      show FNum.dot (.binary64 ω) [(.fin (-1), .fin (-1))] = .fin 1
      rw [dot_single]
      exact e2
    have e4 : (Arith.sqrt (FP.fin 1) : FP (.binary64 ω)) = FP.fin 1 := by
      show FNum.sqrt (.binary64 ω) (.fin 1) = .fin 1
      simp [FNum.sqrt, Rounding.one]
    simp only [getDistance, vzip, List.zipWith_cons_cons, List.zipWith_nil_left, e1, norm2, e3, e4]
  have d2 : getDistance (some .l2) [(FP.fin 1 : FP (.binary64 ω))] [FP.fin 1] = .ok (FP.fin 0) :=
    C85_self (n := 0) .l2 (by simp) fun _ => 1
  have l1 : Arith.lt (FP.fin 1 : FP (.binary64 ω)) (FP.fin (1 / 2)) = false := by
    rw [FP.lt_fin]; exact decide_eq_false (by norm_num)
  have l2 : Arith.lt (FP.fin 0 : FP (.binary64 ω)) (FP.fin (1 / 2)) = true := by
    rw [FP.lt_fin]; exact decide_eq_true (by norm_num)
  have hz : (zeros 1 : Vec (FP (.binary64 ω))) = [FP.fin 0] := by simp [zeros, FP.zero_eq]
  have hi : (⟨.sums, .conv (some .l2) (FP.fin (1 / 2)) 5, some .fixed⟩ : AlgCfg (FP (.binary64 ω))).init
      (matsOf [((0 : Nat), (0 : Nat), (0 : Nat))] none) = .ok ([FP.fin 0], [FP.fin (1 / 2)]) := by
    show (Except.ok (zeros 1, [(Arith.lit 1 2 : FP (.binary64 ω))]) : Except PyErr _) = _
    rw [hz, FP.lit_eq, show ((1 : ℤ) : ℝ) / ((2 : ℕ) : ℝ) = 1 / 2 by norm_num, show (Rounding.binary64 ω).rnd (1 / 2) = FP.fin (1 / 2) from hhalf]
  have he : ∃ out, (⟨.sums, .conv (some .l2) (FP.fin (1 / 2)) 5, some .fixed⟩ : AlgCfg (FP (.binary64 ω))).exec
      (matsOf [((0 : Nat), (0 : Nat), (0 : Nat))] none) 100 {} = .ok out ∧ out.log.length = 3 := by
    refine ⟨⟨_, _, _, _⟩, (exec_ok_iff _ _ _ _ _).2 ⟨(show (1 : Nat) ≠ 0 by decide), _, _, 2, ⟨2, some (FP.fin 0), 0⟩, _, _, _, hi, by norm_num,
      Steps.cons (st' := ⟨1, some (FP.fin 1), 0⟩) rfl (single_body _ (by norm_num) hhalf) ?_
        (Steps.cons (st' := ⟨2, some (FP.fin 0), 0⟩) ?_ (single_body _ (by norm_num) rep_one) ?_ (.refl _ _ _)), .inl ?_, rfl, rfl, rfl⟩, rfl⟩
    · simp only [IterCfg.compare, d1, bind, Except.bind, pure, Except.pure]
    · simp only [IterCfg.finished, IterState.below, l1]
      rfl
    · simp only [IterCfg.compare, d2, bind, Except.bind, pure, Except.pure]
    · simp only [IterCfg.finished, IterState.below, l2]
      rfl
  obtain ⟨out, ho, hlen⟩ := he
  refine ⟨_, _, hd, by rw [runIter_eq, ho], ?_⟩
  rw [List.length_map, ← hlen, ← List.length_map (f := Prod.snd), enum_map_snd]

/-- The hypotheses of `C85_accuracy` hold for the vectors `[1, 3/4]` and `[1/2, 0]`, for all measures. -/
example (m : Measure) : ∃ x, getDistance (some m) (dvec ω ![1, 3 / 4]) (dvec ω ![1 / 2, 0]) = .ok (FP.fin x) := by
  have d1 : IsDouble 1 := ⟨1, 0, by norm_num, by norm_num, by norm_num, by norm_num⟩
  have d2 : IsDouble (3 / 4) := ⟨3, -2, by norm_num [zpow_neg], by norm_num, by norm_num, by norm_num⟩
  have d3 : IsDouble (1 / 2) := ⟨1, -1, by norm_num, by norm_num, by norm_num, by norm_num⟩
  have b : ∀ x : ℝ, |x| ≤ 1 → |x| ≤ 2 ^ (400 : ℤ) := fun x hx => hx.trans (one_le_zpow₀ one_le_two (by norm_num))
  have sm : (2 : ℝ) ^ (-400 : ℤ) ≤ 1 / 2 := by
    rw [one_div, ← zpow_neg_one]; exact zpow_le_zpow_right₀ one_le_two (by norm_num)
  have big : ∀ v : Fin 2 → ℝ, 1 / 2 ≤ v 0 → (2 : ℝ) ^ (-400 : ℤ) ≤ len2 Finset.univ v := by
    intro v hv
    refine sm.trans (Real.le_sqrt_of_sq_le ?_)
    rw [Fin.sum_univ_two]
    nlinarith [sq_nonneg (v 1)]
  obtain ⟨x, h, -⟩ := C85_accuracy (n := 1) m ![1, 3 / 4] ![1 / 2, 0] (by norm_num)
    (by
      intro i
      fin_cases i
      · exact ⟨d1, b _ (by norm_num)⟩
      · exact ⟨d2, b _ (by norm_num [abs_le])⟩)
    (by
      intro i
      fin_cases i
      · exact ⟨d3, b _ (by norm_num [abs_le])⟩
      · exact ⟨isDouble_zero, b _ (by norm_num)⟩)
    (fun _ => ⟨.inr (big _ (by norm_num)), .inr (big _ (by norm_num))⟩)
  exact ⟨x, h⟩

end Runs

end TD
