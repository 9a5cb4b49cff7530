import Verif.Lemmas.PooledRun
import Verif.Props.InvestDouble
import Verif.Model.Client
/-!
# C96: Investment and PooledInvestment in double precision
-/

namespace TD
open Spec

variable {ω : Platform}

section
variable {R : Rounding}

theorem above_self {x : FP R} (h : Above x) : FNum.div R x x = .fin 1 := by
  obtain ⟨u, rfl, -, h⟩ := h
  show FNum.div R (FNum.fin u) (FNum.fin u) = _
  simp only [FNum.div]
  rw [if_neg h.ne', div_self h.ne']
  exact R.one

theorem Below.above {x y : FP R} (h : Below x y) : Above y := by
  obtain ⟨u, v, -, rfl, -, r, -, -, h⟩ := h
  exact ⟨v, rfl, r, h⟩

theorem Below.nr {x y : FP R} (h : Below x y) : NR R x := by
  obtain ⟨u, v, rfl, -, r, -, h, -, -⟩ := h
  exact .fin u h r

theorem Below.div_nr {x y : FP R} (h : Below x y) : NR R (fdiv R x y) := nr_div h.nr.nn (above_nr h.above).nn

theorem Below.lt {x y : FP R} (h : Below x y) : Arith.lt y x = false := by
  obtain ⟨u, v, rfl, rfl, -, -, -, h, -⟩ := h
  exact (FP.lt_fin _ _).trans (decide_eq_false (not_lt.2 h))

/-- The greater one of two. -/
theorem Below.max {x y : FP R} (h : Below x y) : (if Arith.lt x y then y else x) = y := by
  obtain ⟨u, v, rfl, rfl, -, -, -, h, -⟩ := h
  rw [FP.lt_fin]
  rcases h.lt_or_eq with h | rfl
  · rw [if_pos (by simpa using h)]
  · simp

theorem normalise_first {x y z : FP R} (hy : Below y x) (hz : Below z x) :
    normalise (v3 x y z) = .ok (v3 (FP.fin 1) (fdiv R y x) (fdiv R z x)) := by
  simp only [normalise, pyMax, v3, List.foldl_cons, List.foldl_nil, hy.lt, hz.lt, Bool.false_eq_true, if_false, bind,
    Except.bind, pure, Except.pure, List.map_cons, List.map_nil]
  exact congrArg Except.ok (congr3' (above_self hy.above) rfl rfl)

theorem normalise_middle {x y z : FP R} (hy : Below y x) (hz : Below z x) :
    normalise (v3 y x z) = .ok (v3 (fdiv R y x) (FP.fin 1) (fdiv R z x)) := by
  simp only [normalise, pyMax, v3, List.foldl_cons, List.foldl_nil, hy.max, hz.lt, Bool.false_eq_true, if_false, bind,
    Except.bind, pure, Except.pure, List.map_cons, List.map_nil]
  exact congrArg Except.ok (congr3' rfl (above_self hy.above) rfl)

theorem pool_lt_nan (x : FP R) : Arith.lt x (FP.nan : FP R) = false := by
  cases x <;> rfl

theorem pool_nan_lt (x : FP R) : Arith.lt (FP.nan : FP R) x = false := rfl

theorem pool_div_nan (x : FP R) : FNum.div R x FNum.nan = FNum.nan := by cases x <;> rfl
theorem pool_mul_nan (x : FP R) : FNum.mul R x FNum.nan = FNum.nan := by cases x <;> rfl
theorem pool_add_nan (x : FP R) : FNum.add R x FNum.nan = FNum.nan := by cases x <;> rfl

theorem normalise_nan_later {x z : FP R} (h : Above x) (hz : Below z x ∨ z = FP.nan) :
    normalise (v3 x FP.nan z) = .ok (v3 (FP.fin 1) FP.nan (fdiv R z x)) := by
  have hl : Arith.lt x z = false := by
    rcases hz with hz | rfl
    · exact hz.lt
    · exact pool_lt_nan x
  simp only [normalise, pyMax, v3, List.foldl_cons, List.foldl_nil, hl, pool_lt_nan, Bool.false_eq_true, if_false, bind,
    Except.bind, pure, Except.pure, List.map_cons, List.map_nil]
  exact congrArg Except.ok (congr3' (above_self h) rfl rfl)

theorem normalise_nan_first (y z : FP R) : normalise (v3 FP.nan y z) = .ok (v3 FP.nan FP.nan FP.nan) := by
  simp only [normalise, pyMax, v3, List.foldl_cons, List.foldl_nil, pool_nan_lt, Bool.false_eq_true, if_false, bind,
    Except.bind, pure, Except.pure, List.map_cons, List.map_nil]
  exact congrArg Except.ok (congr3' rfl (pool_div_nan y) (pool_div_nan z))

end

section
local notation "D" => FP (Rounding.binary64 ω)

theorem rnd_two_half : (Rounding.binary64 ω).rnd 2 = .fin 2 ∧ (Rounding.binary64 ω).rnd (1 / 2) = .fin (1 / 2) := by
  refine ⟨?_, ?_⟩
  · have := rep_two (ω := ω) (a := 1) (by norm_num) (by norm_num)
    rwa [zpow_one] at this
  · have := rep_two (ω := ω) (a := -1) (by norm_num) (by norm_num)
    rwa [show (2 : ℝ) ^ (-1 : ℤ) = 1 / 2 by norm_num] at this

theorem near_pos {g : FP (.binary64 ω)} (hg : NearSevenFifths g) : ∃ y : ℝ, g = FP.fin y ∧ 0 < y := by
  obtain ⟨y, rfl, h⟩ := hg
  refine ⟨y, rfl, ?_⟩
  rw [abs_le] at h
  have h3 : (2 : ℝ) ^ (-49 : ℤ) ≤ 1 / 2 := by norm_num
  have h4 := h.1
  generalize (2 : ℝ) ^ (-49 : ℤ) = w at h3 h4
  linarith

theorem near_pow {g : FP (.binary64 ω)} (hg : NearSevenFifths g) (x : FNum) (hx : NR (.binary64 ω) x) :
    NR (.binary64 ω) (FNum.pow (.binary64 ω) x g) := by
  obtain ⟨y, rfl, hy⟩ := near_pos hg
  cases hx with
  | nan =>
    have : FNum.pow (.binary64 ω) .nan (FNum.fin y) = .nan := by simp [FNum.pow, hy.ne']
    show NR _ (FNum.pow (.binary64 ω) .nan (FNum.fin y))
    rw [this]
    exact .nan
  | inf =>
    have : FNum.pow (.binary64 ω) .pinf (FNum.fin y) = .pinf := by simp [FNum.pow, hy]
    show NR _ (FNum.pow (.binary64 ω) .pinf (FNum.fin y))
    rw [this]
    exact .inf
  | fin v h hr =>
    show NR _ (FNum.pow (.binary64 ω) (FNum.fin v) (FNum.fin y))
    simp only [FNum.pow, FNum.powFin]
    rcases h.lt_or_eq with h | rfl
    · rw [if_pos h]
      exact nr_faithful (Rounding.pow_faithful _ _ _) (Real.rpow_nonneg h.le y)
    · rw [if_neg (lt_irrefl _), if_neg hy.ne', if_pos rfl, if_pos hy]
      exact nr_zero

variable {g : FP (.binary64 ω)}

/-- Every number of the states is representable. -/
theorem pool_nr (hg : NearSevenFifths g) {j : Nat} (hj : j ≤ 9) :
    NR (.binary64 ω) (poolSeq g j).t2 ∧ NR (.binary64 ω) (poolSeq g j).b0 ∧ NR (.binary64 ω) (poolSeq g j).b1 ∧
      NR (.binary64 ω) (poolSeq g j).b2 := by
  rcases j with _ | j
  · have one : NR (.binary64 ω) (FNum.fin 1) := .fin 1 zero_le_one (Rounding.one _)
    have half : NR (.binary64 ω) (FNum.fin (1 / 2)) := .fin (1 / 2) (by norm_num) rnd_two_half.2
    exact ⟨one, one, half, half⟩
  · obtain ⟨-, -, -, h2, h3, h4, -⟩ := (pool_seq hg).1 j (by omega)
    exact ⟨h2.div_nr, h3.div_nr, nr_div (above_nr h3.above).nn (above_nr h3.above).nn, h4.div_nr⟩

theorem pool_b1 (hg : NearSevenFifths g) {j : Nat} (hj : j < 9) : (poolSeq g (j + 1)).b1 = FP.fin 1 := by
  obtain ⟨-, -, -, -, h3, -⟩ := (pool_seq hg).1 j hj
  exact above_self h3.above

/-- The first nine iterations. -/
theorem pool_iter (hg : NearSevenFifths g) {j : Nat} (hj : j < 9) :
    pooledBody g (matsOf poolTriples none) (v3 (FP.fin 1) (poolSeq g j).t1 (poolSeq g j).t2)
        (v3 (poolSeq g j).b0 (poolSeq g j).b1 (poolSeq g j).b2) =
      .ok (some ⟨v3 (FP.fin 1) (poolSeq g (j + 1)).t1 (poolSeq g (j + 1)).t2, v3 (FP.fin 1) (poolSeq g j).t1 (poolSeq g j).t2,
        v3 (FP.fin 1) (poolSeq g (j + 1)).t1 (poolSeq g (j + 1)).t2,
        v3 (poolSeq g (j + 1)).b0 (poolSeq g (j + 1)).b1 (poolSeq g (j + 1)).b2⟩) ∧
    pooledBody g (matsOf poolTriples' none) (v3 (poolSeq g j).t1 (FP.fin 1) (poolSeq g j).t2)
        (v3 (poolSeq g j).b2 (poolSeq g j).b1 (poolSeq g j).b0) =
      .ok (some ⟨v3 (poolSeq g (j + 1)).t1 (FP.fin 1) (poolSeq g (j + 1)).t2, v3 (poolSeq g j).t1 (FP.fin 1) (poolSeq g j).t2,
        v3 (poolSeq g (j + 1)).t1 (FP.fin 1) (poolSeq g (j + 1)).t2,
        v3 (poolSeq g (j + 1)).b2 (poolSeq g (j + 1)).b1 (poolSeq g (j + 1)).b0⟩) := by
  obtain ⟨k1, k2, k3, k4⟩ := pool_nr hg hj.le
  have hb1 := pool_b1 hg hj
  obtain ⟨h1, h2, h3, h4, h5, h6, -⟩ := (pool_seq hg).1 j hj
  rw [pool_body rnd_two_half.1 rnd_two_half.2 (near_pow hg) h1 h2 k1 k2 k3 k4,
    pool_body' rnd_two_half.1 rnd_two_half.2 (near_pow hg) h1 h2 k1 k2 k3 k4, hb1]
  unfold scaled3
  rw [normalise_first h3 h4, normalise_middle h3 h4]
  simp only [bind, Except.bind, pure, Except.pure]
  rw [normalise_middle h5 h6, normalise_middle h6 h5]
  exact ⟨rfl, rfl⟩

/-- The tenth. -/
theorem pool_tenth (hg : NearSevenFifths g) : ∃ x : ℝ, 1 / 8 ≤ x ∧ x ≤ 1 / 4 ∧
    pooledBody g (matsOf poolTriples none) (v3 (FP.fin 1) (poolSeq g 9).t1 (poolSeq g 9).t2)
        (v3 (poolSeq g 9).b0 (poolSeq g 9).b1 (poolSeq g 9).b2) =
      .ok (some ⟨v3 (FP.fin 1) FP.nan (FP.fin x), v3 (FP.fin 1) (poolSeq g 9).t1 (poolSeq g 9).t2,
        v3 (FP.fin 1) FP.nan (FP.fin x), v3 (FP.fin 1) FP.nan FP.nan⟩) ∧
    pooledBody g (matsOf poolTriples' none) (v3 (poolSeq g 9).t1 (FP.fin 1) (poolSeq g 9).t2)
        (v3 (poolSeq g 9).b2 (poolSeq g 9).b1 (poolSeq g 9).b0) =
      .ok (some ⟨v3 FP.nan FP.nan FP.nan, v3 (poolSeq g 9).t1 (FP.fin 1) (poolSeq g 9).t2,
        v3 FP.nan FP.nan FP.nan, v3 FP.nan FP.nan FP.nan⟩) := by
  obtain ⟨k1, k2, k3, k4⟩ := pool_nr hg le_rfl
  obtain ⟨h1, h2, h3, h4, h5, h6, x, hx, -, hx1, hx2⟩ := (pool_seq hg).2
  obtain ⟨y, ey, hy⟩ := near_pos hg
  have n1 : (poolSeq g 9).n1 = (FP.nan : D) := by
    unfold PoolState.n1
    rw [h5, h6]
    have e : FNum.mul (.binary64 ω) .pinf (.fin 0) = .nan := by simp [FNum.mul]
    show FNum.mul (.binary64 ω) (poolSeq g 9).t1 (FNum.mul (.binary64 ω) .pinf (.fin 0)) = FNum.nan
    rw [e]
    exact pool_mul_nan _
  have hpn : FNum.pow (.binary64 ω) FNum.nan g = FNum.nan := by
    rw [ey]
    show FNum.pow (.binary64 ω) FNum.nan (FNum.fin y) = FNum.nan
    simp [FNum.pow, hy.ne']
  have hq : (poolSeq g 9).q g = (FP.nan : D) := by
    unfold PoolState.q
    rw [n1]
    show FNum.add (.binary64 ω) _ (FNum.pow (.binary64 ω) FNum.nan g) = FNum.nan
    rw [hpn]
    exact pool_add_nan (R := .binary64 ω) (FNum.pow (.binary64 ω) (poolSeq g 9).h1 g)
  have c1 : (poolSeq g 9).c1 g = (FP.nan : D) := by
    unfold PoolState.c1
    rw [hq]
    show FNum.mul (.binary64 ω) _ (FNum.div (.binary64 ω) _ FNum.nan) = FNum.nan
    rw [pool_div_nan (R := .binary64 ω) (FNum.pow (.binary64 ω) (poolSeq g 9).h1 g)]
    exact pool_mul_nan _
  have c2 : (poolSeq g 9).c2 g = (FP.nan : D) := by
    unfold PoolState.c2
    rw [hq, n1]
    rfl
  have e1 : (1 : ℝ) / 8 = dy 1 (-3) := by norm_num [dy]
  have e2 : (1 : ℝ) / 4 = dy 1 (-2) := by norm_num [dy]
  refine ⟨x, e1 ▸ hx1, e2 ▸ hx2, ?_, ?_⟩
  · rw [pool_body rnd_two_half.1 rnd_two_half.2 (near_pow hg) h1 h2 k1 k2 k3 k4, n1, c1, c2]
    unfold scaled3
    rw [normalise_nan_later h3.above (.inl h3), normalise_nan_later h4 (.inr rfl), hx]
    simp only [bind, Except.bind, pure, Except.pure]
    have e : fdiv (.binary64 ω) FP.nan ((poolSeq g 9).c0 g) = FP.nan := rfl
    rw [e]
  · rw [pool_body' rnd_two_half.1 rnd_two_half.2 (near_pow hg) h1 h2 k1 k2 k3 k4, n1, c1, c2]
    unfold scaled3
    rw [normalise_nan_first, normalise_nan_first]
    rfl

/-- What a chain of iterations of a fixed number of steps leads to. -/
theorem pool_chain {m : Mats (FP (.binary64 ω))} {T B : Nat → Vec (FP (.binary64 ω))}
    (h : ∀ j, j < 10 → ∃ c1 c2, pooledBody g m (T j) (B j) = .ok (some ⟨c1, c2, T (j + 1), B (j + 1)⟩)) :
    ∀ n j, j + n ≤ 10 → ∃ L, Steps (.fixed 10) ((Kind.pooledInvestment g).body m) { itCount := j } (T j) (B j) n
      { itCount := j + n } (T (j + n)) (B (j + n)) L := by
  intro n
  induction n with
  | zero => intro j _; exact ⟨[], .refl _ _ _⟩
  | succ n ih =>
    intro j hj
    obtain ⟨L, hL⟩ := ih (j + 1) (by omega)
    rw [show j + 1 + n = j + (n + 1) by omega] at hL
    obtain ⟨c1, c2, hb⟩ := h j (by omega)
    refine ⟨_, .cons ?_ hb rfl hL⟩
    simp only [IterCfg.finished, Except.ok.injEq, decide_eq_false_iff_not]
    omega

/-- The initial scores under the uniform prior, in both orders. -/
theorem pool_init (it : IterCfg (FP (.binary64 ω))) :
    (⟨.pooledInvestment g, it, some .uniform⟩ : AlgCfg (FP (.binary64 ω))).init (matsOf poolTriples none) =
      .ok (v3 (FP.fin 1) (FP.fin 1) (FP.fin 1), v3 (FP.fin 1) (FP.fin (1 / 2)) (FP.fin (1 / 2))) ∧
    (⟨.pooledInvestment g, it, some .uniform⟩ : AlgCfg (FP (.binary64 ω))).init (matsOf poolTriples' none) =
      .ok (v3 (FP.fin 1) (FP.fin 1) (FP.fin 1), v3 (FP.fin (1 / 2)) (FP.fin (1 / 2)) (FP.fin 1)) := by
  have one : NR (.binary64 ω) (FP.fin 1 : FP (.binary64 ω)) := .fin 1 zero_le_one (Rounding.binary64 ω).one
  have r0 : (Rounding.binary64 ω).rnd (0 : Nat) = .fin 0 := by rw [Nat.cast_zero]; exact Rounding.zero _
  have r1 : (Rounding.binary64 ω).rnd (1 : Nat) = .fin 1 := by rw [Nat.cast_one]; exact Rounding.one _
  have a01 : FNum.add (.binary64 ω) (.fin 0) (.fin 1) = .fin 1 := nr_zero_add one
  have m11 : FNum.mul (.binary64 ω) (.fin 1) (.fin 1) = .fin 1 := nr_one_mul one
  have d11 : FNum.div (.binary64 ω) (.fin 1) (.fin 1) = .fin 1 := nr_div_one one
  have a11 : FNum.add (.binary64 ω) (.fin 1) (.fin 1) = .fin 2 := by
    show (Rounding.binary64 ω).rnd (1 + 1) = _
    rw [one_add_one_eq_two]; exact rnd_two_half.1
  have d12 : FNum.div (.binary64 ω) (.fin 1) (.fin 2) = .fin (1 / 2) := by
    simp only [FNum.div]
    rw [if_neg (by norm_num)]; exact rnd_two_half.2
  have e1 : FNum.div (.binary64 ω) ((Rounding.binary64 ω).rnd (1 : Nat)) (FNum.add (.binary64 ω)
      ((Rounding.binary64 ω).rnd (0 : Nat)) (FNum.mul (.binary64 ω) ((Rounding.binary64 ω).rnd (1 : Nat))
      ((Rounding.binary64 ω).rnd (1 : Nat)))) = .fin 1 := by rw [r0, r1, m11, a01, d11]
  have e2 : FNum.div (.binary64 ω) ((Rounding.binary64 ω).rnd (1 : Nat)) (FNum.add (.binary64 ω) (FNum.add (.binary64 ω)
      ((Rounding.binary64 ω).rnd (0 : Nat)) (FNum.mul (.binary64 ω) ((Rounding.binary64 ω).rnd (1 : Nat))
      ((Rounding.binary64 ω).rnd (1 : Nat)))) (FNum.mul (.binary64 ω) ((Rounding.binary64 ω).rnd (1 : Nat))
      ((Rounding.binary64 ω).rnd (1 : Nat)))) = .fin (1 / 2) := by rw [r0, r1, m11, a01, a11, d12]
  refine ⟨?_, ?_⟩
  · exact congrArg Except.ok (congrArg₂ Prod.mk (congr3' r1 r1 r1) (congr3' e1 e2 e2))
  · exact congrArg Except.ok (congrArg₂ Prod.mk (congr3' r1 r1 r1) (congr3' e2 e2 e1))

/-- The two runs, for any exponent close to 7/5. -/
theorem pool_runs (hg : NearSevenFifths g) (clock : Nat → FP (.binary64 ω)) (fuel : Nat) (hf : 10 < fuel) :
    ∃ (x : ℝ) (r r' : Result Nat Nat Nat (FP (.binary64 ω))), 1 / 8 ≤ x ∧ x ≤ 1 / 4 ∧
      (⟨.pooledInvestment g, .fixed 10, some .uniform⟩ : AlgCfg (FP (.binary64 ω))).run (datasetOf poolTriples none) fuel
        clock = .ok r ∧
      (⟨.pooledInvestment g, .fixed 10, some .uniform⟩ : AlgCfg (FP (.binary64 ω))).run (datasetOf poolTriples' none) fuel
        clock = .ok r' ∧
      r.iterations = some 10 ∧ r'.iterations = some 10 ∧
      r.trust = [(0, FP.fin 1), (1, FP.nan), (2, FP.fin x)] ∧
      r.belief = [(0, [(0, FP.fin 1)]), (1, [(1, FP.nan), (0, FP.nan)])] ∧
      r'.trust = [(1, FP.nan), (0, FP.nan), (2, FP.nan)] ∧
      r'.belief = [(1, [(0, FP.nan), (1, FP.nan)]), (0, [(0, FP.nan)])] := by
  obtain ⟨x, hx1, hx2, ht, ht'⟩ := pool_tenth hg
  obtain ⟨hi, hi'⟩ := pool_init (g := g) (.fixed 10)
  obtain ⟨L, hL⟩ := pool_chain (g := g) (m := matsOf poolTriples none)
    (T := fun j => if j ≤ 9 then v3 (FP.fin 1) (poolSeq g j).t1 (poolSeq g j).t2 else v3 (FP.fin 1) FP.nan (FP.fin x))
    (B := fun j => if j ≤ 9 then v3 (poolSeq g j).b0 (poolSeq g j).b1 (poolSeq g j).b2 else v3 (FP.fin 1) FP.nan FP.nan)
    (by
      intro j hj
      rcases Nat.lt_succ_iff_lt_or_eq.1 hj with hj | rfl
      · simp only [if_pos hj.le, if_pos (Nat.succ_le_of_lt hj)]
        exact ⟨_, _, (pool_iter hg hj).1⟩
      · exact ⟨_, _, ht⟩) 10 0 le_rfl
  obtain ⟨L', hL'⟩ := pool_chain (g := g) (m := matsOf poolTriples' none)
    (T := fun j => if j ≤ 9 then v3 (poolSeq g j).t1 (FP.fin 1) (poolSeq g j).t2 else v3 FP.nan FP.nan FP.nan)
    (B := fun j => if j ≤ 9 then v3 (poolSeq g j).b2 (poolSeq g j).b1 (poolSeq g j).b0 else v3 FP.nan FP.nan FP.nan)
    (by
      intro j hj
      rcases Nat.lt_succ_iff_lt_or_eq.1 hj with hj | rfl
      · simp only [if_pos hj.le, if_pos (Nat.succ_le_of_lt hj)]
        exact ⟨_, _, (pool_iter hg hj).2⟩
      · exact ⟨_, _, ht'⟩) 10 0 le_rfl
  refine ⟨x, resultOf poolTriples (v3 (FP.fin 1) FP.nan (FP.fin x)) (v3 (FP.fin 1) FP.nan FP.nan)
    (clock 1 -. clock 0) (some 10), resultOf poolTriples' (v3 FP.nan FP.nan FP.nan) (v3 FP.nan FP.nan FP.nan)
    (clock 1 -. clock 0) (some 10), hx1, hx2, ?_, ?_, rfl, rfl, rfl, rfl, rfl, rfl⟩
  · rw [run_eq]
    have hex := (exec_ok_iff (⟨.pooledInvestment g, .fixed 10, some .uniform⟩ : AlgCfg (FP (.binary64 ω)))
      (matsOf poolTriples none) fuel {} ⟨v3 (FP.fin 1) FP.nan (FP.fin x), v3 (FP.fin 1) FP.nan FP.nan, 10, _⟩).2
      ⟨(show (3 : Nat) ≠ 0 by decide), _, _, 10, _, _, _, L, hi, hf, hL, .inl rfl, rfl, rfl, rfl⟩
    rw [hex]
  · rw [run_eq]
    have hex := (exec_ok_iff (⟨.pooledInvestment g, .fixed 10, some .uniform⟩ : AlgCfg (FP (.binary64 ω)))
      (matsOf poolTriples' none) fuel {} ⟨v3 FP.nan FP.nan FP.nan, v3 FP.nan FP.nan FP.nan, 10, _⟩).2
      ⟨(show (3 : Nat) ≠ 0 by decide), _, _, 10, _, _, _, L', hi', hf, hL', .inl rfl, rfl, rfl, rfl⟩
    rw [hex]

/-- C96, refutation of "a run with the default settings returns numbers" and of "the order of the claims does
not matter": PooledInvestment constructed without arguments (exponent 1.4, ten iterations, uniform prior) and run in
double precision on four claims.  Source 0 is alone with its claim on variable 0; on variable 1 sources 0 and 2
claim 1 and source 1 claims 0.  The trust in source 1 and the belief in both claims on variable 1 are NaN, also the
one made by two of the three sources.  When the same four claims are listed in another order, every trust score and
every belief score is NaN.  This holds for any order of summation of the products. -/
theorem C96_default (clock : Nat → FP (.binary64 ω)) (fuel : Nat) (hf : 10 < fuel) :
    ∃ (alg : AnyAlg (FP (.binary64 ω))) (d d' : Dataset Nat Nat Nat (FP (.binary64 ω)))
      (r r' : Result Nat Nat Nat (FP (.binary64 ω))) (x : ℝ),
      makeAlg .pooledInvestment [] = .ok alg ∧
      Dataset.mk' [(0, 0, 0), (0, 1, 1), (1, 1, 0), (2, 1, 1)] false none = .ok d ∧
      Dataset.mk' [(1, 1, 0), (0, 1, 1), (0, 0, 0), (2, 1, 1)] false none = .ok d' ∧
      alg.run d fuel clock = .ok r ∧ alg.run d' fuel clock = .ok r' ∧
      r.iterations = some 10 ∧ r'.iterations = some 10 ∧
      r.trust = [(0, FP.fin 1), (1, FP.nan), (2, FP.fin x)] ∧ 1 / 8 ≤ x ∧ x ≤ 1 / 4 ∧
      r.belief = [(0, [(0, FP.fin 1)]), (1, [(1, FP.nan), (0, FP.nan)])] ∧
      r'.trust = [(1, FP.nan), (0, FP.nan), (2, FP.nan)] ∧
      r'.belief = [(1, [(0, FP.nan), (1, FP.nan)]), (0, [(0, FP.nan)])] := by
  have hd := (mk'_ok_iff poolTriples (one_ne_zero_fp (R := .binary64 ω)) false none _).2
    ⟨rfl, .inr (by simp [NoRepeats]), by simp [optImpBad]⟩
  have hd' := (mk'_ok_iff poolTriples' (one_ne_zero_fp (R := .binary64 ω)) false none _).2
    ⟨rfl, .inr (by simp [NoRepeats]), by simp [optImpBad]⟩
  obtain ⟨x, r, r', hx1, hx2, hr, hr', hk, hk', h1, h2, h3, h4⟩ :=
    pool_runs (lit_seven_fifths (ω := ω)) clock fuel hf
  exact ⟨.iter _, _, _, r, r', x, rfl, hd, hd', hr, hr', hk, hk', h1, hx1, hx2, h2, h3, h4⟩

theorem near_invests (hg : NearSevenFifths g) : Invests (.pooledInvestment g) := by
  obtain ⟨y, rfl, h⟩ := hg
  have h3 : (2 : ℝ) ^ (-49 : ℤ) ≤ 1 / 4 := by norm_num
  rw [abs_le] at h
  obtain ⟨h4, h5⟩ := h
  generalize (2 : ℝ) ^ (-49 : ℤ) = w at h3 h4 h5
  exact ⟨y, by linarith, by linarith, .inr rfl⟩

/-- C96_next and C96_one apply to PooledInvestment with its default exponent on the four claims. -/
example (clock : Nat → FP (.binary64 ω)) :
    ∃ (d : Dataset Nat Nat Nat (FP (.binary64 ω))) (r r' : Result Nat Nat Nat (FP (.binary64 ω))),
      Dataset.mk' poolTriples false none = .ok d ∧
      (⟨.pooledInvestment (Arith.lit 14 10), .fixed 0, some .uniform⟩ : AlgCfg (FP (.binary64 ω))).run d 5 clock = .ok r ∧
      Within r Moderate ∧
      (⟨.pooledInvestment (Arith.lit 14 10), .fixed 1, some .uniform⟩ : AlgCfg (FP (.binary64 ω))).run d 5 clock = .ok r' ∧
      OneAttained r' := by
  have hd := (mk'_ok_iff poolTriples (one_ne_zero_fp (R := .binary64 ω)) false none _).2
    ⟨rfl, .inr (by simp [NoRepeats]), by simp [optImpBad]⟩
  have hS : (allSources poolTriples).card ≤ 2 ^ 20 := by decide
  have hC : (allClaims poolTriples).card ≤ 2 ^ 20 := by decide
  obtain ⟨r, hr, hw⟩ := invest_start poolTriples (by simp) none hS hC _ (near_invests (lit_seven_fifths (ω := ω))) .uniform 5
    (by norm_num) clock {}
  obtain ⟨-, r', hr', -, -, -, h1⟩ := C96_next poolTriples false none _ hd hS hC _ (near_invests (lit_seven_fifths (ω := ω)))
    (some .uniform) 0 5 clock {} r hr hw 5 (by norm_num) clock {}
  exact ⟨_, r, r', hd, hr, hw, hr', h1⟩

/-- By C96_next and C96_default, on the four claims some score is below `2 ^ -600` after nine iterations. -/
example (clock : Nat → FP (.binary64 ω)) (d : Dataset Nat Nat Nat (FP (.binary64 ω)))
    (hd : Dataset.mk' poolTriples false none = .ok d) (r : Result Nat Nat Nat (FP (.binary64 ω)))
    (hr : (⟨.pooledInvestment (Arith.lit 14 10), .fixed 9, some .uniform⟩ : AlgCfg (FP (.binary64 ω))).run d 20 clock = .ok r) :
    ¬ Within r Moderate := by
  intro hw
  obtain ⟨-, r', hr', -, -, h2, -⟩ := C96_next poolTriples false none d hd (by decide) (by decide) _
    (near_invests (lit_seven_fifths (ω := ω))) (some .uniform) 9 20 clock {} r hr hw 20 (by norm_num) clock {}
  obtain ⟨alg, d1, d2, r1, r2, x, ha, hd1, -, hr1, -, -, -, ht, -⟩ := C96_default clock 20 (by norm_num)
  cases hd.symm.trans hd1
  cases ha
  have e : r' = r1 := by
    have := hr'.symm.trans hr1
    simpa using this
  subst e
  obtain ⟨y, hy, -⟩ := h2.1 1 FP.nan (by rw [ht]; rfl)
  cases hy

end
end TD
