import Verif.Lemmas.Interval
import Verif.Props.Range
/-! Bounds of the first nine iterations of PooledInvestment on a dataset of four claims
(used in Props/PooledDouble.lean); the numbers were found with a script. -/

namespace TD
open Spec

variable {ω : Platform}

/-- The trust of sources 1 and 2 (source 0 has trust 1) and the belief in the three claims. -/
structure PoolState (R : Rounding) where
  t1 : FP R
  t2 : FP R
  b0 : FP R
  b1 : FP R
  b2 : FP R

section
variable (R : Rounding)

/-- Quotient of two floats. -/
noncomputable abbrev fdiv (x y : FP R) : FP R := FNum.div R x y
/-- Product of two floats. -/
noncomputable abbrev fmul (x y : FP R) : FP R := FNum.mul R x y
/-- Sum of two floats. -/
noncomputable abbrev fadd (x y : FP R) : FP R := FNum.add R x y
end

section
variable {R : Rounding} (g : FP R) (p : PoolState R)

/-- One divided by the amount invested in claim 1. -/
noncomputable def PoolState.r1 : FP R := fdiv R (FP.fin 1) (fadd R (FP.fin (1 / 2)) p.t2)
/-- One divided by the amount invested in claim 2. -/
noncomputable def PoolState.r2 : FP R := fdiv R (FP.fin 1) p.t1
/-- New trust of source 0, before scaling. -/
noncomputable def PoolState.n0 : FP R :=
  fmul R (FP.fin (1 / 2)) (fadd R (fmul R (FP.fin 2) p.b0) (fmul R p.r1 p.b1))
/-- New trust of source 1, before scaling. -/
noncomputable def PoolState.n1 : FP R := fmul R p.t1 (fmul R p.r2 p.b2)
/-- New trust of source 2, before scaling. -/
noncomputable def PoolState.n2 : FP R := fmul R p.t2 (fmul R p.r1 p.b1)
/-- The amounts invested in the claims. -/
noncomputable def PoolState.h0 : FP R := fdiv R p.n0 (FP.fin 2)
/-- The amounts invested in the claims. -/
noncomputable def PoolState.h1 : FP R := fadd R p.h0 p.n2
/-- The sum of the returns of claims 1 and 2. -/
noncomputable def PoolState.q : FP R := fadd R (FNum.pow R p.h1 g) (FNum.pow R p.n1 g)
/-- New beliefs, before scaling. -/
noncomputable def PoolState.c0 : FP R := fmul R p.h0 (fdiv R (FNum.pow R p.h0 g) (FNum.pow R p.h0 g))
/-- New beliefs, before scaling. -/
noncomputable def PoolState.c1 : FP R := fmul R p.h1 (fdiv R (FNum.pow R p.h1 g) (p.q g))
/-- New beliefs, before scaling. -/
noncomputable def PoolState.c2 : FP R := fmul R p.n1 (fdiv R (FNum.pow R p.n1 g) (p.q g))

/-- The state after one more iteration, if source 0 and claim 1 have the largest scores. -/
noncomputable def poolNext : PoolState R :=
  ⟨fdiv R p.n1 p.n0, fdiv R p.n2 p.n0, fdiv R (p.c0 g) (p.c1 g), fdiv R (p.c1 g) (p.c1 g), fdiv R (p.c2 g) (p.c1 g)⟩

/-- Bounds of a state. -/
def PoolIn (a1 a1' a2 a2' c0 c0' c1 c1' c2 c2' : ℝ) : Prop :=
  Btw R a1 a1' p.t1 ∧ Btw R a2 a2' p.t2 ∧ Btw R c0 c0' p.b0 ∧ Btw R c1 c1' p.b1 ∧ Btw R c2 c2' p.b2

/-- A positive number. -/
def Above (x : FP R) : Prop := ∃ u, x = FP.fin u ∧ Rep R u ∧ 0 < u

/-- `0 ≤ x ≤ y` and `0 < y`. -/
def Below (x y : FP R) : Prop := ∃ u v, x = FP.fin u ∧ y = FP.fin v ∧ Rep R u ∧ Rep R v ∧ 0 ≤ u ∧ u ≤ v ∧ 0 < v

/-- The next iteration goes through, and source 0 and claim 1 have the largest scores. -/
def PoolOk : Prop :=
  Above (fadd R (FP.fin (1 / 2)) p.t2) ∧ Above p.t1 ∧ Below p.n1 p.n0 ∧ Below p.n2 p.n0 ∧
    Below (p.c0 g) (p.c1 g) ∧ Below (p.c2 g) (p.c1 g) ∧ Above (R := R) (FNum.pow R p.h0 g)

/-- The last iteration: the amount invested in claim 2 is so small that its inverse overflows. -/
def PoolLast : Prop :=
  Above (fadd R (FP.fin (1 / 2)) p.t2) ∧ Above p.t1 ∧ Below p.n2 p.n0 ∧ Above (p.c0 g) ∧ p.r2 = FNum.pinf ∧
    p.b2 = FP.fin 0 ∧ Btw R (dy 1 (-3)) (dy 1 (-2)) (fdiv R p.n2 p.n0)

variable {g p}

theorem above {a b : ℝ} {x : FP R} (h : Btw R a b x) (ha : 0 < a) : Above x := by
  obtain ⟨u, e, r, h1, -⟩ := h
  exact ⟨u, e, r, ha.trans_le h1⟩

theorem below {a b c d : ℝ} {x y : FP R} (h : Btw R a b x) (h' : Btw R c d y) (ha : 0 ≤ a) (hbc : b ≤ c) (hc : 0 < c) :
    Below x y := by
  obtain ⟨u, e, r, h1, h2⟩ := h
  obtain ⟨v, e', r', h3, -⟩ := h'
  exact ⟨u, v, e, e', r, r', ha.trans h1, h2.trans (hbc.trans h3), hc.trans_le h3⟩

end

theorem btw_half : Btw (.binary64 ω) (dy 1 (-1)) (dy 1 (-1)) (FP.fin (1 / 2)) := by
  have e : dy 1 (-1) = 1 / 2 := by norm_num [dy]
  rw [← e]
  exact ⟨_, rfl, rep_dy (by norm_num) (by norm_num) (by norm_num), le_rfl, le_rfl⟩

theorem btw_two : Btw (.binary64 ω) (dy 1 1) (dy 1 1) (FP.fin 2) := by
  have e : dy 1 1 = 2 := by norm_num [dy]
  rw [← e]
  exact ⟨_, rfl, rep_dy (by norm_num) (by norm_num) (by norm_num), le_rfl, le_rfl⟩

theorem iv_zero {x : FP (.binary64 ω)} (h : Btw (.binary64 ω) (dy 0 0) (dy 0 0) x) : x = FP.fin 0 := by
  obtain ⟨u, rfl, -, h1, h2⟩ := h
  have : u = 0 := by simp [dy] at h1 h2; linarith
  rw [this]

theorem iv_inv_huge {x : FP (.binary64 ω)} {a b : ℝ} (h : Btw (.binary64 ω) a b x) (ha : 0 < a)
    (hb : b * 2 ^ (1024 : ℤ) ≤ 1) : FNum.div (.binary64 ω) (.fin 1) x = .pinf := by
  obtain ⟨u, rfl, -, h1, h2⟩ := h
  have hu : 0 < u := ha.trans_le h1
  have e : FNum.div (.binary64 ω) (.fin 1) (FNum.fin u) = (Rounding.binary64 ω).rnd (1 / u) := by
    simp only [FNum.div]; rw [if_neg hu.ne']
  show FNum.div (.binary64 ω) (.fin 1) (FNum.fin u) = _
  rw [e]
  have hle : (2 : ℝ) ^ (1024 : ℤ) ≤ 1 / u := by
    rw [le_div_iff₀ hu, mul_comm]
    exact (mul_le_mul_of_nonneg_right h2 (by positivity)).trans hb
  have hm := (Rounding.binary64 ω).mono _ _ hle
  have hh : (Rounding.binary64 ω).rnd ((2 : ℝ) ^ (1024 : ℤ)) = .pinf := rnd_huge
  rw [hh] at hm
  have hn := (Rounding.binary64 ω).notNan (1 / u)
  cases hc : (Rounding.binary64 ω).rnd (1 / u) with
  | nan => exact absurd hc hn
  | pinf => rfl
  | ninf => rw [hc] at hm; exact absurd hm (by simp [FNum.toEReal])
  | fin v => rw [hc] at hm; exact absurd hm (by simp [FNum.toEReal])

set_option exponentiation.threshold 20000

local macro "iv" : tactic => `(tactic| norm_num [dy])

theorem pool_step0 {g : FP (.binary64 ω)} (hg : NearSevenFifths g) {p : PoolState (.binary64 ω)}
    (h : PoolIn p (dy 8589934592 (-33)) (dy 8589934592 (-33)) (dy 8589934592 (-33)) (dy 8589934592 (-33)) (dy 8589934592 (-33)) (dy 8589934592 (-33)) (dy 8589934592 (-34)) (dy 8589934592 (-34)) (dy 8589934592 (-34)) (dy 8589934592 (-34))) : PoolIn (poolNext g p) (dy 14725602156 (-35)) (dy 14725602159 (-35)) (dy 9817068103 (-35)) (dy 9817068106 (-35)) (dy 15612011997 (-34)) (dy 15612012011 (-34)) (dy 1 0) (dy 1 0) (dy 16043547342 (-36)) (dy 16043547361 (-36)) ∧ PoolOk g p := by
  obtain ⟨ht1, ht2, hb0, hb1, hb2⟩ := h
  have hhalf := btw_half (ω := ω)
  have htwo := btw_two (ω := ω)
  have H1 : Btw _ (dy 12884901888 (-33)) (dy 12884901888 (-33)) _ :=
    iv_add hhalf ht2 (rep_dy (by norm_num) (by norm_num) (by norm_num)) (rep_dy (by norm_num) (by norm_num) (by norm_num)) (by iv) (by iv)
  have R1 : Btw _ (dy 11453246122 (-34)) (dy 11453246123 (-34)) _ :=
    iv_inv H1 (rep_dy (by norm_num) (by norm_num) (by norm_num)) (rep_dy (by norm_num) (by norm_num) (by norm_num)) (by iv) (by iv) (by iv)
  have R2 : Btw _ (dy 8589934592 (-33)) (dy 8589934592 (-33)) _ :=
    iv_inv ht1 (rep_dy (by norm_num) (by norm_num) (by norm_num)) (rep_dy (by norm_num) (by norm_num) (by norm_num)) (by iv) (by iv) (by iv)
  have a : Btw _ (dy 8589934592 (-32)) (dy 8589934592 (-32)) _ :=
    iv_mul htwo hb0 (rep_dy (by norm_num) (by norm_num) (by norm_num)) (rep_dy (by norm_num) (by norm_num) (by norm_num)) (by iv) (by iv) (by iv) (by iv)
  have b : Btw _ (dy 11453246122 (-35)) (dy 11453246123 (-35)) _ :=
    iv_mul R1 hb1 (rep_dy (by norm_num) (by norm_num) (by norm_num)) (rep_dy (by norm_num) (by norm_num) (by norm_num)) (by iv) (by iv) (by iv) (by iv)
  have z : Btw _ (dy 10021590357 (-32)) (dy 10021590358 (-32)) _ :=
    iv_add a b (rep_dy (by norm_num) (by norm_num) (by norm_num)) (rep_dy (by norm_num) (by norm_num) (by norm_num)) (by iv) (by iv)
  have n0 : Btw _ (dy 10021590357 (-33)) (dy 10021590358 (-33)) _ :=
    iv_mul hhalf z (rep_dy (by norm_num) (by norm_num) (by norm_num)) (rep_dy (by norm_num) (by norm_num) (by norm_num)) (by iv) (by iv) (by iv) (by iv)
  have c : Btw _ (dy 8589934592 (-34)) (dy 8589934592 (-34)) _ :=
    iv_mul R2 hb2 (rep_dy (by norm_num) (by norm_num) (by norm_num)) (rep_dy (by norm_num) (by norm_num) (by norm_num)) (by iv) (by iv) (by iv) (by iv)
  have n1 : Btw _ (dy 8589934592 (-34)) (dy 8589934592 (-34)) _ :=
    iv_mul ht1 c (rep_dy (by norm_num) (by norm_num) (by norm_num)) (rep_dy (by norm_num) (by norm_num) (by norm_num)) (by iv) (by iv) (by iv) (by iv)
  have n2 : Btw _ (dy 11453246122 (-35)) (dy 11453246123 (-35)) _ :=
    iv_mul ht2 b (rep_dy (by norm_num) (by norm_num) (by norm_num)) (rep_dy (by norm_num) (by norm_num) (by norm_num)) (by iv) (by iv) (by iv) (by iv)
  have h0 : Btw _ (dy 10021590357 (-34)) (dy 10021590358 (-34)) _ :=
    iv_div n0 htwo (rep_dy (by norm_num) (by norm_num) (by norm_num)) (rep_dy (by norm_num) (by norm_num) (by norm_num)) (by iv) (by iv) (by iv) (by iv)
  have h1 : Btw _ (dy 15748213418 (-34)) (dy 15748213420 (-34)) _ :=
    iv_add h0 n2 (rep_dy (by norm_num) (by norm_num) (by norm_num)) (rep_dy (by norm_num) (by norm_num) (by norm_num)) (by iv) (by iv)
  have r0 : Btw _ (dy 16155981967 (-35)) (dy 16155981971 (-35)) _ :=
    iv_pow hg h0 (rep_dy (by norm_num) (by norm_num) (by norm_num)) (rep_dy (by norm_num) (by norm_num) (by norm_num)) (by iv) (by iv) (by iv) (by iv) (by iv)
  have r1 : Btw _ (dy 15209532573 (-34)) (dy 15209532576 (-34)) _ :=
    iv_pow hg h1 (rep_dy (by norm_num) (by norm_num) (by norm_num)) (rep_dy (by norm_num) (by norm_num) (by norm_num)) (by iv) (by iv) (by iv) (by iv) (by iv)
  have r2 : Btw _ (dy 13019906166 (-35)) (dy 13019906167 (-35)) _ :=
    iv_pow hg n1 (rep_dy (by norm_num) (by norm_num) (by norm_num)) (rep_dy (by norm_num) (by norm_num) (by norm_num)) (by iv) (by iv) (by iv) (by iv) (by iv)
  have q : Btw _ (dy 10859742828 (-33)) (dy 10859742830 (-33)) _ :=
    iv_add r1 r2 (rep_dy (by norm_num) (by norm_num) (by norm_num)) (rep_dy (by norm_num) (by norm_num) (by norm_num)) (by iv) (by iv)
  have u0 : Btw _ (dy 1 0) (dy 1 0) _ := iv_self r0 (by iv)
  have s1 : Btw _ (dy 12030569417 (-34)) (dy 12030569423 (-34)) _ :=
    iv_div r1 q (rep_dy (by norm_num) (by norm_num) (by norm_num)) (rep_dy (by norm_num) (by norm_num) (by norm_num)) (by iv) (by iv) (by iv) (by iv)
  have s2 : Btw _ (dy 10298599525 (-35)) (dy 10298599529 (-35)) _ :=
    iv_div r2 q (rep_dy (by norm_num) (by norm_num) (by norm_num)) (rep_dy (by norm_num) (by norm_num) (by norm_num)) (by iv) (by iv) (by iv) (by iv)
  have B0 : Btw _ (dy 10021590357 (-34)) (dy 10021590358 (-34)) _ :=
    iv_mul h0 u0 (rep_dy (by norm_num) (by norm_num) (by norm_num)) (rep_dy (by norm_num) (by norm_num) (by norm_num)) (by iv) (by iv) (by iv) (by iv)
  have B1 : Btw _ (dy 11028021965 (-34)) (dy 11028021973 (-34)) _ :=
    iv_mul h1 s1 (rep_dy (by norm_num) (by norm_num) (by norm_num)) (rep_dy (by norm_num) (by norm_num) (by norm_num)) (by iv) (by iv) (by iv) (by iv)
  have B2 : Btw _ (dy 10298599525 (-36)) (dy 10298599529 (-36)) _ :=
    iv_mul n1 s2 (rep_dy (by norm_num) (by norm_num) (by norm_num)) (rep_dy (by norm_num) (by norm_num) (by norm_num)) (by iv) (by iv) (by iv) (by iv)
  have nt1 : Btw _ (dy 14725602156 (-35)) (dy 14725602159 (-35)) _ :=
    iv_div n1 n0 (rep_dy (by norm_num) (by norm_num) (by norm_num)) (rep_dy (by norm_num) (by norm_num) (by norm_num)) (by iv) (by iv) (by iv) (by iv)
  have nt2 : Btw _ (dy 9817068103 (-35)) (dy 9817068106 (-35)) _ :=
    iv_div n2 n0 (rep_dy (by norm_num) (by norm_num) (by norm_num)) (rep_dy (by norm_num) (by norm_num) (by norm_num)) (by iv) (by iv) (by iv) (by iv)
  have nb0 : Btw _ (dy 15612011997 (-34)) (dy 15612012011 (-34)) _ :=
    iv_div B0 B1 (rep_dy (by norm_num) (by norm_num) (by norm_num)) (rep_dy (by norm_num) (by norm_num) (by norm_num)) (by iv) (by iv) (by iv) (by iv)
  have nb1 : Btw _ (dy 1 0) (dy 1 0) _ := iv_self B1 (by iv)
  have nb2 : Btw _ (dy 16043547342 (-36)) (dy 16043547361 (-36)) _ :=
    iv_div B2 B1 (rep_dy (by norm_num) (by norm_num) (by norm_num)) (rep_dy (by norm_num) (by norm_num) (by norm_num)) (by iv) (by iv) (by iv) (by iv)
  exact ⟨⟨nt1, nt2, nb0, nb1, nb2⟩, above H1 (by iv), above ht1 (by iv), below n1 n0 (by iv) (by iv) (by iv),
    below n2 n0 (by iv) (by iv) (by iv), below B0 B1 (by iv) (by iv) (by iv), below B2 B1 (by iv) (by iv) (by iv), above r0 (by iv)⟩

theorem pool_step1 {g : FP (.binary64 ω)} (hg : NearSevenFifths g) {p : PoolState (.binary64 ω)}
    (h : PoolIn p (dy 14725602156 (-35)) (dy 14725602159 (-35)) (dy 9817068103 (-35)) (dy 9817068106 (-35)) (dy 15612011997 (-34)) (dy 15612012011 (-34)) (dy 1 0) (dy 1 0) (dy 16043547342 (-36)) (dy 16043547361 (-36))) : PoolIn (poolNext g p) (dy 10383485251 (-36)) (dy 10383485278 (-36)) (dy 16172974443 (-36)) (dy 16172974465 (-36)) (dy 12956064570 (-34)) (dy 12956064624 (-34)) (dy 1 0) (dy 1 0) (dy 12325913569 (-39)) (dy 12325913687 (-39)) ∧ PoolOk g p := by
  obtain ⟨ht1, ht2, hb0, hb1, hb2⟩ := h
  have hhalf := btw_half (ω := ω)
  have htwo := btw_two (ω := ω)
  have H1 : Btw _ (dy 13498468643 (-34)) (dy 13498468645 (-34)) _ :=
    iv_add hhalf ht2 (rep_dy (by norm_num) (by norm_num) (by norm_num)) (rep_dy (by norm_num) (by norm_num) (by norm_num)) (by iv) (by iv)
  have R1 : Btw _ (dy 10932644025 (-33)) (dy 10932644028 (-33)) _ :=
    iv_inv H1 (rep_dy (by norm_num) (by norm_num) (by norm_num)) (rep_dy (by norm_num) (by norm_num) (by norm_num)) (by iv) (by iv) (by iv)
  have R2 : Btw _ (dy 10021590356 (-32)) (dy 10021590359 (-32)) _ :=
    iv_inv ht1 (rep_dy (by norm_num) (by norm_num) (by norm_num)) (rep_dy (by norm_num) (by norm_num) (by norm_num)) (by iv) (by iv) (by iv)
  have a : Btw _ (dy 15612011997 (-33)) (dy 15612012011 (-33)) _ :=
    iv_mul htwo hb0 (rep_dy (by norm_num) (by norm_num) (by norm_num)) (rep_dy (by norm_num) (by norm_num) (by norm_num)) (by iv) (by iv) (by iv) (by iv)
  have b : Btw _ (dy 10932644025 (-33)) (dy 10932644028 (-33)) _ :=
    iv_mul R1 hb1 (rep_dy (by norm_num) (by norm_num) (by norm_num)) (rep_dy (by norm_num) (by norm_num) (by norm_num)) (by iv) (by iv) (by iv) (by iv)
  have z : Btw _ (dy 13272328011 (-32)) (dy 13272328020 (-32)) _ :=
    iv_add a b (rep_dy (by norm_num) (by norm_num) (by norm_num)) (rep_dy (by norm_num) (by norm_num) (by norm_num)) (by iv) (by iv)
  have n0 : Btw _ (dy 13272328011 (-33)) (dy 13272328020 (-33)) _ :=
    iv_mul hhalf z (rep_dy (by norm_num) (by norm_num) (by norm_num)) (rep_dy (by norm_num) (by norm_num) (by norm_num)) (by iv) (by iv) (by iv) (by iv)
  have c : Btw _ (dy 9358735948 (-34)) (dy 9358735963 (-34)) _ :=
    iv_mul R2 hb2 (rep_dy (by norm_num) (by norm_num) (by norm_num)) (rep_dy (by norm_num) (by norm_num) (by norm_num)) (by iv) (by iv) (by iv) (by iv)
  have n1 : Btw _ (dy 16043547337 (-36)) (dy 16043547367 (-36)) _ :=
    iv_mul ht1 c (rep_dy (by norm_num) (by norm_num) (by norm_num)) (rep_dy (by norm_num) (by norm_num) (by norm_num)) (by iv) (by iv) (by iv) (by iv)
  have n2 : Btw _ (dy 12494450311 (-35)) (dy 12494450319 (-35)) _ :=
    iv_mul ht2 b (rep_dy (by norm_num) (by norm_num) (by norm_num)) (rep_dy (by norm_num) (by norm_num) (by norm_num)) (by iv) (by iv) (by iv) (by iv)
  have h0 : Btw _ (dy 13272328011 (-34)) (dy 13272328020 (-34)) _ :=
    iv_div n0 htwo (rep_dy (by norm_num) (by norm_num) (by norm_num)) (rep_dy (by norm_num) (by norm_num) (by norm_num)) (by iv) (by iv) (by iv) (by iv)
  have h1 : Btw _ (dy 9759776583 (-33)) (dy 9759776590 (-33)) _ :=
    iv_add h0 n2 (rep_dy (by norm_num) (by norm_num) (by norm_num)) (rep_dy (by norm_num) (by norm_num) (by norm_num)) (by iv) (by iv)
  have r0 : Btw _ (dy 11970657572 (-34)) (dy 11970657584 (-34)) _ :=
    iv_pow hg h0 (rep_dy (by norm_num) (by norm_num) (by norm_num)) (rep_dy (by norm_num) (by norm_num) (by norm_num)) (by iv) (by iv) (by iv) (by iv) (by iv)
  have r1 : Btw _ (dy 10271169204 (-33)) (dy 10271169216 (-33)) _ :=
    iv_pow hg h1 (rep_dy (by norm_num) (by norm_num) (by norm_num)) (rep_dy (by norm_num) (by norm_num) (by norm_num)) (by iv) (by iv) (by iv) (by iv) (by iv)
  have r2 : Btw _ (dy 8965791239 (-36)) (dy 8965791263 (-36)) _ :=
    iv_pow hg n1 (rep_dy (by norm_num) (by norm_num) (by norm_num)) (rep_dy (by norm_num) (by norm_num) (by norm_num)) (by iv) (by iv) (by iv) (by iv) (by iv)
  have q : Btw _ (dy 11391893108 (-33)) (dy 11391893124 (-33)) _ :=
    iv_add r1 r2 (rep_dy (by norm_num) (by norm_num) (by norm_num)) (rep_dy (by norm_num) (by norm_num) (by norm_num)) (by iv) (by iv)
  have u0 : Btw _ (dy 1 0) (dy 1 0) _ := iv_self r0 (by iv)
  have s1 : Btw _ (dy 15489729527 (-34)) (dy 15489729567 (-34)) _ :=
    iv_div r1 q (rep_dy (by norm_num) (by norm_num) (by norm_num)) (rep_dy (by norm_num) (by norm_num) (by norm_num)) (by iv) (by iv) (by iv) (by iv)
  have s2 : Btw _ (dy 13521117073 (-37)) (dy 13521117129 (-37)) _ :=
    iv_div r2 q (rep_dy (by norm_num) (by norm_num) (by norm_num)) (rep_dy (by norm_num) (by norm_num) (by norm_num)) (by iv) (by iv) (by iv) (by iv)
  have B0 : Btw _ (dy 13272328011 (-34)) (dy 13272328020 (-34)) _ :=
    iv_mul h0 u0 (rep_dy (by norm_num) (by norm_num) (by norm_num)) (rep_dy (by norm_num) (by norm_num) (by norm_num)) (by iv) (by iv) (by iv) (by iv)
  have B1 : Btw _ (dy 8799618780 (-33)) (dy 8799618810 (-33)) _ :=
    iv_mul h1 s1 (rep_dy (by norm_num) (by norm_num) (by norm_num)) (rep_dy (by norm_num) (by norm_num) (by norm_num)) (by iv) (by iv) (by iv) (by iv)
  have B2 : Btw _ (dy 12626794737 (-39)) (dy 12626794814 (-39)) _ :=
    iv_mul n1 s2 (rep_dy (by norm_num) (by norm_num) (by norm_num)) (rep_dy (by norm_num) (by norm_num) (by norm_num)) (by iv) (by iv) (by iv) (by iv)
  have nt1 : Btw _ (dy 10383485251 (-36)) (dy 10383485278 (-36)) _ :=
    iv_div n1 n0 (rep_dy (by norm_num) (by norm_num) (by norm_num)) (rep_dy (by norm_num) (by norm_num) (by norm_num)) (by iv) (by iv) (by iv) (by iv)
  have nt2 : Btw _ (dy 16172974443 (-36)) (dy 16172974465 (-36)) _ :=
    iv_div n2 n0 (rep_dy (by norm_num) (by norm_num) (by norm_num)) (rep_dy (by norm_num) (by norm_num) (by norm_num)) (by iv) (by iv) (by iv) (by iv)
  have nb0 : Btw _ (dy 12956064570 (-34)) (dy 12956064624 (-34)) _ :=
    iv_div B0 B1 (rep_dy (by norm_num) (by norm_num) (by norm_num)) (rep_dy (by norm_num) (by norm_num) (by norm_num)) (by iv) (by iv) (by iv) (by iv)
  have nb1 : Btw _ (dy 1 0) (dy 1 0) _ := iv_self B1 (by iv)
  have nb2 : Btw _ (dy 12325913569 (-39)) (dy 12325913687 (-39)) _ :=
    iv_div B2 B1 (rep_dy (by norm_num) (by norm_num) (by norm_num)) (rep_dy (by norm_num) (by norm_num) (by norm_num)) (by iv) (by iv) (by iv) (by iv)
  exact ⟨⟨nt1, nt2, nb0, nb1, nb2⟩, above H1 (by iv), above ht1 (by iv), below n1 n0 (by iv) (by iv) (by iv),
    below n2 n0 (by iv) (by iv) (by iv), below B0 B1 (by iv) (by iv) (by iv), below B2 B1 (by iv) (by iv) (by iv), above r0 (by iv)⟩

theorem pool_step2 {g : FP (.binary64 ω)} (hg : NearSevenFifths g) {p : PoolState (.binary64 ω)}
    (h : PoolIn p (dy 10383485251 (-36)) (dy 10383485278 (-36)) (dy 16172974443 (-36)) (dy 16172974465 (-36)) (dy 12956064570 (-34)) (dy 12956064624 (-34)) (dy 1 0) (dy 1 0) (dy 12325913569 (-39)) (dy 12325913687 (-39))) : PoolIn (poolNext g p) (dy 8594921541 (-39)) (dy 8594921692 (-39)) (dy 15336276501 (-36)) (dy 15336276575 (-36)) (dy 11933531746 (-34)) (dy 11933531895 (-34)) (dy 1 0) (dy 1 0) (dy 14190662497 (-47)) (dy 14190663208 (-47)) ∧ PoolOk g p := by
  obtain ⟨ht1, ht2, hb0, hb1, hb2⟩ := h
  have hhalf := btw_half (ω := ω)
  have htwo := btw_two (ω := ω)
  have H1 : Btw _ (dy 12633178202 (-34)) (dy 12633178209 (-34)) _ :=
    iv_add hhalf ht2 (rep_dy (by norm_num) (by norm_num) (by norm_num)) (rep_dy (by norm_num) (by norm_num) (by norm_num)) (by iv) (by iv)
  have R1 : Btw _ (dy 11681458944 (-33)) (dy 11681458952 (-33)) _ :=
    iv_inv H1 (rep_dy (by norm_num) (by norm_num) (by norm_num)) (rep_dy (by norm_num) (by norm_num) (by norm_num)) (by iv) (by iv) (by iv)
  have R2 : Btw _ (dy 14212371726 (-31)) (dy 14212371764 (-31)) _ :=
    iv_inv ht1 (rep_dy (by norm_num) (by norm_num) (by norm_num)) (rep_dy (by norm_num) (by norm_num) (by norm_num)) (by iv) (by iv) (by iv)
  have a : Btw _ (dy 12956064570 (-33)) (dy 12956064624 (-33)) _ :=
    iv_mul htwo hb0 (rep_dy (by norm_num) (by norm_num) (by norm_num)) (rep_dy (by norm_num) (by norm_num) (by norm_num)) (by iv) (by iv) (by iv) (by iv)
  have b : Btw _ (dy 11681458944 (-33)) (dy 11681458952 (-33)) _ :=
    iv_mul R1 hb1 (rep_dy (by norm_num) (by norm_num) (by norm_num)) (rep_dy (by norm_num) (by norm_num) (by norm_num)) (by iv) (by iv) (by iv) (by iv)
  have z : Btw _ (dy 12318761757 (-32)) (dy 12318761788 (-32)) _ :=
    iv_add a b (rep_dy (by norm_num) (by norm_num) (by norm_num)) (rep_dy (by norm_num) (by norm_num) (by norm_num)) (by iv) (by iv)
  have n0 : Btw _ (dy 12318761757 (-33)) (dy 12318761788 (-33)) _ :=
    iv_mul hhalf z (rep_dy (by norm_num) (by norm_num) (by norm_num)) (rep_dy (by norm_num) (by norm_num) (by norm_num)) (by iv) (by iv) (by iv) (by iv)
  have c : Btw _ (dy 10196845134 (-36)) (dy 10196845260 (-36)) _ :=
    iv_mul R2 hb2 (rep_dy (by norm_num) (by norm_num) (by norm_num)) (rep_dy (by norm_num) (by norm_num) (by norm_num)) (by iv) (by iv) (by iv) (by iv)
  have n1 : Btw _ (dy 12325913535 (-39)) (dy 12325913720 (-39)) _ :=
    iv_mul ht1 c (rep_dy (by norm_num) (by norm_num) (by norm_num)) (rep_dy (by norm_num) (by norm_num) (by norm_num)) (by iv) (by iv) (by iv) (by iv)
  have n2 : Btw _ (dy 10996820460 (-35)) (dy 10996820484 (-35)) _ :=
    iv_mul ht2 b (rep_dy (by norm_num) (by norm_num) (by norm_num)) (rep_dy (by norm_num) (by norm_num) (by norm_num)) (by iv) (by iv) (by iv) (by iv)
  have h0 : Btw _ (dy 12318761757 (-34)) (dy 12318761788 (-34)) _ :=
    iv_div n0 htwo (rep_dy (by norm_num) (by norm_num) (by norm_num)) (rep_dy (by norm_num) (by norm_num) (by norm_num)) (by iv) (by iv) (by iv) (by iv)
  have h1 : Btw _ (dy 8908585993 (-33)) (dy 8908586015 (-33)) _ :=
    iv_add h0 n2 (rep_dy (by norm_num) (by norm_num) (by norm_num)) (rep_dy (by norm_num) (by norm_num) (by norm_num)) (by iv) (by iv)
  have r0 : Btw _ (dy 10784150436 (-34)) (dy 10784150475 (-34)) _ :=
    iv_pow hg h0 (rep_dy (by norm_num) (by norm_num) (by norm_num)) (rep_dy (by norm_num) (by norm_num) (by norm_num)) (by iv) (by iv) (by iv) (by iv) (by iv)
  have r1 : Btw _ (dy 9039332140 (-33)) (dy 9039332172 (-33)) _ :=
    iv_pow hg h1 (rep_dy (by norm_num) (by norm_num) (by norm_num)) (rep_dy (by norm_num) (by norm_num) (by norm_num)) (by iv) (by iv) (by iv) (by iv) (by iv)
  have r2 : Btw _ (dy 10792916635 (-41)) (dy 10792916863 (-41)) _ :=
    iv_pow hg n1 (rep_dy (by norm_num) (by norm_num) (by norm_num)) (rep_dy (by norm_num) (by norm_num) (by norm_num)) (by iv) (by iv) (by iv) (by iv) (by iv)
  have q : Btw _ (dy 9081491970 (-33)) (dy 9081492004 (-33)) _ :=
    iv_add r1 r2 (rep_dy (by norm_num) (by norm_num) (by norm_num)) (rep_dy (by norm_num) (by norm_num) (by norm_num)) (by iv) (by iv)
  have u0 : Btw _ (dy 1 0) (dy 1 0) _ := iv_self r0 (by iv)
  have s1 : Btw _ (dy 17100113462 (-34)) (dy 17100113587 (-34)) _ :=
    iv_div r1 q (rep_dy (by norm_num) (by norm_num) (by norm_num)) (rep_dy (by norm_num) (by norm_num) (by norm_num)) (by iv) (by iv) (by iv) (by iv)
  have s2 : Btw _ (dy 10208724283 (-41)) (dy 10208724538 (-41)) _ :=
    iv_div r2 q (rep_dy (by norm_num) (by norm_num) (by norm_num)) (rep_dy (by norm_num) (by norm_num) (by norm_num)) (by iv) (by iv) (by iv) (by iv)
  have B0 : Btw _ (dy 12318761757 (-34)) (dy 12318761788 (-34)) _ :=
    iv_mul h0 u0 (rep_dy (by norm_num) (by norm_num) (by norm_num)) (rep_dy (by norm_num) (by norm_num) (by norm_num)) (by iv) (by iv) (by iv) (by iv)
  have B1 : Btw _ (dy 8867228826 (-33)) (dy 8867228914 (-33)) _ :=
    iv_mul h1 s1 (rep_dy (by norm_num) (by norm_num) (by norm_num)) (rep_dy (by norm_num) (by norm_num) (by norm_num)) (by iv) (by iv) (by iv) (by iv)
  have B2 : Btw _ (dy 14648755641 (-47)) (dy 14648756228 (-47)) _ :=
    iv_mul n1 s2 (rep_dy (by norm_num) (by norm_num) (by norm_num)) (rep_dy (by norm_num) (by norm_num) (by norm_num)) (by iv) (by iv) (by iv) (by iv)
  have nt1 : Btw _ (dy 8594921541 (-39)) (dy 8594921692 (-39)) _ :=
    iv_div n1 n0 (rep_dy (by norm_num) (by norm_num) (by norm_num)) (rep_dy (by norm_num) (by norm_num) (by norm_num)) (by iv) (by iv) (by iv) (by iv)
  have nt2 : Btw _ (dy 15336276501 (-36)) (dy 15336276575 (-36)) _ :=
    iv_div n2 n0 (rep_dy (by norm_num) (by norm_num) (by norm_num)) (rep_dy (by norm_num) (by norm_num) (by norm_num)) (by iv) (by iv) (by iv) (by iv)
  have nb0 : Btw _ (dy 11933531746 (-34)) (dy 11933531895 (-34)) _ :=
    iv_div B0 B1 (rep_dy (by norm_num) (by norm_num) (by norm_num)) (rep_dy (by norm_num) (by norm_num) (by norm_num)) (by iv) (by iv) (by iv) (by iv)
  have nb1 : Btw _ (dy 1 0) (dy 1 0) _ := iv_self B1 (by iv)
  have nb2 : Btw _ (dy 14190662497 (-47)) (dy 14190663208 (-47)) _ :=
    iv_div B2 B1 (rep_dy (by norm_num) (by norm_num) (by norm_num)) (rep_dy (by norm_num) (by norm_num) (by norm_num)) (by iv) (by iv) (by iv) (by iv)
  exact ⟨⟨nt1, nt2, nb0, nb1, nb2⟩, above H1 (by iv), above ht1 (by iv), below n1 n0 (by iv) (by iv) (by iv),
    below n2 n0 (by iv) (by iv) (by iv), below B0 B1 (by iv) (by iv) (by iv), below B2 B1 (by iv) (by iv) (by iv), above r0 (by iv)⟩

theorem pool_step3 {g : FP (.binary64 ω)} (hg : NearSevenFifths g) {p : PoolState (.binary64 ω)}
    (h : PoolIn p (dy 8594921541 (-39)) (dy 8594921692 (-39)) (dy 15336276501 (-36)) (dy 15336276575 (-36)) (dy 11933531746 (-34)) (dy 11933531895 (-34)) (dy 1 0) (dy 1 0) (dy 14190662497 (-47)) (dy 14190663208 (-47))) : PoolIn (poolNext g p) (dy 10238416139 (-47)) (dy 10238417088 (-47)) (dy 15300595117 (-36)) (dy 15300595329 (-36)) (dy 11886696162 (-34)) (dy 11886696577 (-34)) (dy 1 0) (dy 1 0) (dy 9416583801 (-65)) (dy 9416586092 (-65)) ∧ PoolOk g p := by
  obtain ⟨ht1, ht2, hb0, hb1, hb2⟩ := h
  have hhalf := btw_half (ω := ω)
  have htwo := btw_two (ω := ω)
  have H1 : Btw _ (dy 12424003717 (-34)) (dy 12424003736 (-34)) _ :=
    iv_add hhalf ht2 (rep_dy (by norm_num) (by norm_num) (by norm_num)) (rep_dy (by norm_num) (by norm_num) (by norm_num)) (by iv) (by iv)
  have R1 : Btw _ (dy 11878131697 (-33)) (dy 11878131716 (-33)) _ :=
    iv_inv H1 (rep_dy (by norm_num) (by norm_num) (by norm_num)) (rep_dy (by norm_num) (by norm_num) (by norm_num)) (by iv) (by iv) (by iv)
  have R2 : Btw _ (dy 17169900771 (-28)) (dy 17169901074 (-28)) _ :=
    iv_inv ht1 (rep_dy (by norm_num) (by norm_num) (by norm_num)) (rep_dy (by norm_num) (by norm_num) (by norm_num)) (by iv) (by iv) (by iv)
  have a : Btw _ (dy 11933531746 (-33)) (dy 11933531895 (-33)) _ :=
    iv_mul htwo hb0 (rep_dy (by norm_num) (by norm_num) (by norm_num)) (rep_dy (by norm_num) (by norm_num) (by norm_num)) (by iv) (by iv) (by iv) (by iv)
  have b : Btw _ (dy 11878131697 (-33)) (dy 11878131716 (-33)) _ :=
    iv_mul R1 hb1 (rep_dy (by norm_num) (by norm_num) (by norm_num)) (rep_dy (by norm_num) (by norm_num) (by norm_num)) (by iv) (by iv) (by iv) (by iv)
  have z : Btw _ (dy 11905831721 (-32)) (dy 11905831806 (-32)) _ :=
    iv_add a b (rep_dy (by norm_num) (by norm_num) (by norm_num)) (rep_dy (by norm_num) (by norm_num) (by norm_num)) (by iv) (by iv)
  have n0 : Btw _ (dy 11905831721 (-33)) (dy 11905831806 (-33)) _ :=
    iv_mul hhalf z (rep_dy (by norm_num) (by norm_num) (by norm_num)) (rep_dy (by norm_num) (by norm_num) (by norm_num)) (by iv) (by iv) (by iv) (by iv)
  have c : Btw _ (dy 14182428535 (-41)) (dy 14182429497 (-41)) _ :=
    iv_mul R2 hb2 (rep_dy (by norm_num) (by norm_num) (by norm_num)) (rep_dy (by norm_num) (by norm_num) (by norm_num)) (by iv) (by iv) (by iv) (by iv)
  have n1 : Btw _ (dy 14190662247 (-47)) (dy 14190663459 (-47)) _ :=
    iv_mul ht1 c (rep_dy (by norm_num) (by norm_num) (by norm_num)) (rep_dy (by norm_num) (by norm_num) (by norm_num)) (by iv) (by iv) (by iv) (by iv)
  have n2 : Btw _ (dy 10603474919 (-35)) (dy 10603474989 (-35)) _ :=
    iv_mul ht2 b (rep_dy (by norm_num) (by norm_num) (by norm_num)) (rep_dy (by norm_num) (by norm_num) (by norm_num)) (by iv) (by iv) (by iv) (by iv)
  have h0 : Btw _ (dy 11905831721 (-34)) (dy 11905831806 (-34)) _ :=
    iv_div n0 htwo (rep_dy (by norm_num) (by norm_num) (by norm_num)) (rep_dy (by norm_num) (by norm_num) (by norm_num)) (by iv) (by iv) (by iv) (by iv)
  have h1 : Btw _ (dy 8603784590 (-33)) (dy 8603784651 (-33)) _ :=
    iv_add h0 n2 (rep_dy (by norm_num) (by norm_num) (by norm_num)) (rep_dy (by norm_num) (by norm_num) (by norm_num)) (by iv) (by iv)
  have r0 : Btw _ (dy 10281481414 (-34)) (dy 10281481518 (-34)) _ :=
    iv_pow hg h0 (rep_dy (by norm_num) (by norm_num) (by norm_num)) (rep_dy (by norm_num) (by norm_num) (by norm_num)) (by iv) (by iv) (by iv) (by iv) (by iv)
  have r1 : Btw _ (dy 8609330839 (-33)) (dy 8609330926 (-33)) _ :=
    iv_pow hg h1 (rep_dy (by norm_num) (by norm_num) (by norm_num)) (rep_dy (by norm_num) (by norm_num) (by norm_num)) (by iv) (by iv) (by iv) (by iv) (by iv)
  have r2 : Btw _ (dy 11444314622 (-52)) (dy 11444315991 (-52)) _ :=
    iv_pow hg n1 (rep_dy (by norm_num) (by norm_num) (by norm_num)) (rep_dy (by norm_num) (by norm_num) (by norm_num)) (by iv) (by iv) (by iv) (by iv) (by iv)
  have q : Btw _ (dy 8609352667 (-33)) (dy 8609352755 (-33)) _ :=
    iv_add r1 r2 (rep_dy (by norm_num) (by norm_num) (by norm_num)) (rep_dy (by norm_num) (by norm_num) (by norm_num)) (by iv) (by iv)
  have u0 : Btw _ (dy 1 0) (dy 1 0) _ := iv_self r0 (by iv)
  have s1 : Btw _ (dy 17179825450 (-34)) (dy 17179825801 (-34)) _ :=
    iv_div r1 q (rep_dy (by norm_num) (by norm_num) (by norm_num)) (rep_dy (by norm_num) (by norm_num) (by norm_num)) (by iv) (by iv) (by iv) (by iv)
  have s2 : Btw _ (dy 11418502278 (-52)) (dy 11418503762 (-52)) _ :=
    iv_div r2 q (rep_dy (by norm_num) (by norm_num) (by norm_num)) (rep_dy (by norm_num) (by norm_num) (by norm_num)) (by iv) (by iv) (by iv) (by iv)
  have B0 : Btw _ (dy 11905831721 (-34)) (dy 11905831806 (-34)) _ :=
    iv_mul h0 u0 (rep_dy (by norm_num) (by norm_num) (by norm_num)) (rep_dy (by norm_num) (by norm_num) (by norm_num)) (by iv) (by iv) (by iv) (by iv)
  have B1 : Btw _ (dy 8603762687 (-33)) (dy 8603762925 (-33)) _ :=
    iv_mul h1 s1 (rep_dy (by norm_num) (by norm_num) (by norm_num)) (rep_dy (by norm_num) (by norm_num) (by norm_num)) (by iv) (by iv) (by iv) (by iv)
  have B2 : Btw _ (dy 9431742899 (-65)) (dy 9431744932 (-65)) _ :=
    iv_mul n1 s2 (rep_dy (by norm_num) (by norm_num) (by norm_num)) (rep_dy (by norm_num) (by norm_num) (by norm_num)) (by iv) (by iv) (by iv) (by iv)
  have nt1 : Btw _ (dy 10238416139 (-47)) (dy 10238417088 (-47)) _ :=
    iv_div n1 n0 (rep_dy (by norm_num) (by norm_num) (by norm_num)) (rep_dy (by norm_num) (by norm_num) (by norm_num)) (by iv) (by iv) (by iv) (by iv)
  have nt2 : Btw _ (dy 15300595117 (-36)) (dy 15300595329 (-36)) _ :=
    iv_div n2 n0 (rep_dy (by norm_num) (by norm_num) (by norm_num)) (rep_dy (by norm_num) (by norm_num) (by norm_num)) (by iv) (by iv) (by iv) (by iv)
  have nb0 : Btw _ (dy 11886696162 (-34)) (dy 11886696577 (-34)) _ :=
    iv_div B0 B1 (rep_dy (by norm_num) (by norm_num) (by norm_num)) (rep_dy (by norm_num) (by norm_num) (by norm_num)) (by iv) (by iv) (by iv) (by iv)
  have nb1 : Btw _ (dy 1 0) (dy 1 0) _ := iv_self B1 (by iv)
  have nb2 : Btw _ (dy 9416583801 (-65)) (dy 9416586092 (-65)) _ :=
    iv_div B2 B1 (rep_dy (by norm_num) (by norm_num) (by norm_num)) (rep_dy (by norm_num) (by norm_num) (by norm_num)) (by iv) (by iv) (by iv) (by iv)
  exact ⟨⟨nt1, nt2, nb0, nb1, nb2⟩, above H1 (by iv), above ht1 (by iv), below n1 n0 (by iv) (by iv) (by iv),
    below n2 n0 (by iv) (by iv) (by iv), below B0 B1 (by iv) (by iv) (by iv), below B2 B1 (by iv) (by iv) (by iv), above r0 (by iv)⟩

theorem pool_step4 {g : FP (.binary64 ω)} (hg : NearSevenFifths g) {p : PoolState (.binary64 ω)}
    (h : PoolIn p (dy 10238416139 (-47)) (dy 10238417088 (-47)) (dy 15300595117 (-36)) (dy 15300595329 (-36)) (dy 11886696162 (-34)) (dy 11886696577 (-34)) (dy 1 0) (dy 1 0) (dy 9416583801 (-65)) (dy 9416586092 (-65))) : PoolIn (poolNext g p) (dy 13609825750 (-66)) (dy 13609831857 (-66)) (dy 15300575534 (-36)) (dy 15300576118 (-36)) (dy 11886670314 (-34)) (dy 11886671436 (-34)) (dy 1 0) (dy 1 0) (dy 12301647204 (-110)) (dy 12301661127 (-110)) ∧ PoolOk g p := by
  obtain ⟨ht1, ht2, hb0, hb1, hb2⟩ := h
  have hhalf := btw_half (ω := ω)
  have htwo := btw_two (ω := ω)
  have H1 : Btw _ (dy 12415083371 (-34)) (dy 12415083425 (-34)) _ :=
    iv_add hhalf ht2 (rep_dy (by norm_num) (by norm_num) (by norm_num)) (rep_dy (by norm_num) (by norm_num) (by norm_num)) (by iv) (by iv)
  have R1 : Btw _ (dy 11886666205 (-33)) (dy 11886666258 (-33)) _ :=
    iv_inv H1 (rep_dy (by norm_num) (by norm_num) (by norm_num)) (rep_dy (by norm_num) (by norm_num) (by norm_num)) (by iv) (by iv) (by iv)
  have R2 : Btw _ (dy 14413746902 (-20)) (dy 14413748239 (-20)) _ :=
    iv_inv ht1 (rep_dy (by norm_num) (by norm_num) (by norm_num)) (rep_dy (by norm_num) (by norm_num) (by norm_num)) (by iv) (by iv) (by iv)
  have a : Btw _ (dy 11886696162 (-33)) (dy 11886696577 (-33)) _ :=
    iv_mul htwo hb0 (rep_dy (by norm_num) (by norm_num) (by norm_num)) (rep_dy (by norm_num) (by norm_num) (by norm_num)) (by iv) (by iv) (by iv) (by iv)
  have b : Btw _ (dy 11886666205 (-33)) (dy 11886666258 (-33)) _ :=
    iv_mul R1 hb1 (rep_dy (by norm_num) (by norm_num) (by norm_num)) (rep_dy (by norm_num) (by norm_num) (by norm_num)) (by iv) (by iv) (by iv) (by iv)
  have z : Btw _ (dy 11886681183 (-32)) (dy 11886681418 (-32)) _ :=
    iv_add a b (rep_dy (by norm_num) (by norm_num) (by norm_num)) (rep_dy (by norm_num) (by norm_num) (by norm_num)) (by iv) (by iv)
  have n0 : Btw _ (dy 11886681183 (-33)) (dy 11886681418 (-33)) _ :=
    iv_mul hhalf z (rep_dy (by norm_num) (by norm_num) (by norm_num)) (rep_dy (by norm_num) (by norm_num) (by norm_num)) (by iv) (by iv) (by iv) (by iv)
  have c : Btw _ (dy 15800848555 (-52)) (dy 15800853866 (-52)) _ :=
    iv_mul R2 hb2 (rep_dy (by norm_num) (by norm_num) (by norm_num)) (rep_dy (by norm_num) (by norm_num) (by norm_num)) (by iv) (by iv) (by iv) (by iv)
  have n1 : Btw _ (dy 9416582927 (-65)) (dy 9416586966 (-65)) _ :=
    iv_mul ht1 c (rep_dy (by norm_num) (by norm_num) (by norm_num)) (rep_dy (by norm_num) (by norm_num) (by norm_num)) (by iv) (by iv) (by iv) (by iv)
  have n2 : Btw _ (dy 10586405807 (-35)) (dy 10586406001 (-35)) _ :=
    iv_mul ht2 b (rep_dy (by norm_num) (by norm_num) (by norm_num)) (rep_dy (by norm_num) (by norm_num) (by norm_num)) (by iv) (by iv) (by iv) (by iv)
  have h0 : Btw _ (dy 11886681183 (-34)) (dy 11886681418 (-34)) _ :=
    iv_div n0 htwo (rep_dy (by norm_num) (by norm_num) (by norm_num)) (rep_dy (by norm_num) (by norm_num) (by norm_num)) (by iv) (by iv) (by iv) (by iv)
  have h1 : Btw _ (dy 8589942043 (-33)) (dy 8589942210 (-33)) _ :=
    iv_add h0 n2 (rep_dy (by norm_num) (by norm_num) (by norm_num)) (rep_dy (by norm_num) (by norm_num) (by norm_num)) (by iv) (by iv)
  have r0 : Btw _ (dy 10258335987 (-34)) (dy 10258336272 (-34)) _ :=
    iv_pow hg h0 (rep_dy (by norm_num) (by norm_num) (by norm_num)) (rep_dy (by norm_num) (by norm_num) (by norm_num)) (by iv) (by iv) (by iv) (by iv) (by iv)
  have r1 : Btw _ (dy 8589945023 (-33)) (dy 8589945258 (-33)) _ :=
    iv_pow hg h1 (rep_dy (by norm_num) (by norm_num) (by norm_num)) (rep_dy (by norm_num) (by norm_num) (by norm_num)) (by iv) (by iv) (by iv) (by iv) (by iv)
  have r2 : Btw _ (dy 11221753531 (-78)) (dy 11221760271 (-78)) _ :=
    iv_pow hg n1 (rep_dy (by norm_num) (by norm_num) (by norm_num)) (rep_dy (by norm_num) (by norm_num) (by norm_num)) (by iv) (by iv) (by iv) (by iv) (by iv)
  have q : Btw _ (dy 8589945023 (-33)) (dy 8589945259 (-33)) _ :=
    iv_add r1 r2 (rep_dy (by norm_num) (by norm_num) (by norm_num)) (rep_dy (by norm_num) (by norm_num) (by norm_num)) (by iv) (by iv)
  have u0 : Btw _ (dy 1 0) (dy 1 0) _ := iv_self r0 (by iv)
  have s1 : Btw _ (dy 17179868712 (-34)) (dy 8589934827 (-33)) _ :=
    iv_div r1 q (rep_dy (by norm_num) (by norm_num) (by norm_num)) (rep_dy (by norm_num) (by norm_num) (by norm_num)) (by iv) (by iv) (by iv) (by iv)
  have s2 : Btw _ (dy 11221739595 (-78)) (dy 11221746645 (-78)) _ :=
    iv_div r2 q (rep_dy (by norm_num) (by norm_num) (by norm_num)) (rep_dy (by norm_num) (by norm_num) (by norm_num)) (by iv) (by iv) (by iv) (by iv)
  have B0 : Btw _ (dy 11886681183 (-34)) (dy 11886681418 (-34)) _ :=
    iv_mul h0 u0 (rep_dy (by norm_num) (by norm_num) (by norm_num)) (rep_dy (by norm_num) (by norm_num) (by norm_num)) (by iv) (by iv) (by iv) (by iv)
  have B1 : Btw _ (dy 8589941806 (-33)) (dy 8589942446 (-33)) _ :=
    iv_mul h1 s1 (rep_dy (by norm_num) (by norm_num) (by norm_num)) (rep_dy (by norm_num) (by norm_num) (by norm_num)) (by iv) (by iv) (by iv) (by iv)
  have B2 : Btw _ (dy 12301658452 (-110)) (dy 12301671458 (-110)) _ :=
    iv_mul n1 s2 (rep_dy (by norm_num) (by norm_num) (by norm_num)) (rep_dy (by norm_num) (by norm_num) (by norm_num)) (by iv) (by iv) (by iv) (by iv)
  have nt1 : Btw _ (dy 13609825750 (-66)) (dy 13609831857 (-66)) _ :=
    iv_div n1 n0 (rep_dy (by norm_num) (by norm_num) (by norm_num)) (rep_dy (by norm_num) (by norm_num) (by norm_num)) (by iv) (by iv) (by iv) (by iv)
  have nt2 : Btw _ (dy 15300575534 (-36)) (dy 15300576118 (-36)) _ :=
    iv_div n2 n0 (rep_dy (by norm_num) (by norm_num) (by norm_num)) (rep_dy (by norm_num) (by norm_num) (by norm_num)) (by iv) (by iv) (by iv) (by iv)
  have nb0 : Btw _ (dy 11886670314 (-34)) (dy 11886671436 (-34)) _ :=
    iv_div B0 B1 (rep_dy (by norm_num) (by norm_num) (by norm_num)) (rep_dy (by norm_num) (by norm_num) (by norm_num)) (by iv) (by iv) (by iv) (by iv)
  have nb1 : Btw _ (dy 1 0) (dy 1 0) _ := iv_self B1 (by iv)
  have nb2 : Btw _ (dy 12301647204 (-110)) (dy 12301661127 (-110)) _ :=
    iv_div B2 B1 (rep_dy (by norm_num) (by norm_num) (by norm_num)) (rep_dy (by norm_num) (by norm_num) (by norm_num)) (by iv) (by iv) (by iv) (by iv)
  exact ⟨⟨nt1, nt2, nb0, nb1, nb2⟩, above H1 (by iv), above ht1 (by iv), below n1 n0 (by iv) (by iv) (by iv),
    below n2 n0 (by iv) (by iv) (by iv), below B0 B1 (by iv) (by iv) (by iv), below B2 B1 (by iv) (by iv) (by iv), above r0 (by iv)⟩

theorem pool_step5 {g : FP (.binary64 ω)} (hg : NearSevenFifths g) {p : PoolState (.binary64 ω)}
    (h : PoolIn p (dy 13609825750 (-66)) (dy 13609831857 (-66)) (dy 15300575534 (-36)) (dy 15300576118 (-36)) (dy 11886670314 (-34)) (dy 11886671436 (-34)) (dy 1 0) (dy 1 0) (dy 12301647204 (-110)) (dy 12301661127 (-110))) : PoolIn (poolNext g p) (dy 8889814123 (-110)) (dy 8889832637 (-110)) (dy 15300575035 (-36)) (dy 15300576618 (-36)) (dy 11886669373 (-34)) (dy 11886672376 (-34)) (dy 1 0) (dy 1 0) (dy 11681578167 (-217)) (dy 11681638256 (-217)) ∧ PoolOk g p := by
  obtain ⟨ht1, ht2, hb0, hb1, hb2⟩ := h
  have hhalf := btw_half (ω := ω)
  have htwo := btw_two (ω := ω)
  have H1 : Btw _ (dy 12415078475 (-34)) (dy 12415078622 (-34)) _ :=
    iv_add hhalf ht2 (rep_dy (by norm_num) (by norm_num) (by norm_num)) (rep_dy (by norm_num) (by norm_num) (by norm_num)) (by iv) (by iv)
  have R1 : Btw _ (dy 11886670804 (-33)) (dy 11886670946 (-33)) _ :=
    iv_inv H1 (rep_dy (by norm_num) (by norm_num) (by norm_num)) (rep_dy (by norm_num) (by norm_num) (by norm_num)) (by iv) (by iv) (by iv)
  have R2 : Btw _ (dy 10843187053 (-1)) (dy 10843191919 (-1)) _ :=
    iv_inv ht1 (rep_dy (by norm_num) (by norm_num) (by norm_num)) (rep_dy (by norm_num) (by norm_num) (by norm_num)) (by iv) (by iv) (by iv)
  have a : Btw _ (dy 11886670314 (-33)) (dy 11886671436 (-33)) _ :=
    iv_mul htwo hb0 (rep_dy (by norm_num) (by norm_num) (by norm_num)) (rep_dy (by norm_num) (by norm_num) (by norm_num)) (by iv) (by iv) (by iv) (by iv)
  have b : Btw _ (dy 11886670804 (-33)) (dy 11886670946 (-33)) _ :=
    iv_mul R1 hb1 (rep_dy (by norm_num) (by norm_num) (by norm_num)) (rep_dy (by norm_num) (by norm_num) (by norm_num)) (by iv) (by iv) (by iv) (by iv)
  have z : Btw _ (dy 11886670559 (-32)) (dy 11886671191 (-32)) _ :=
    iv_add a b (rep_dy (by norm_num) (by norm_num) (by norm_num)) (rep_dy (by norm_num) (by norm_num) (by norm_num)) (by iv) (by iv)
  have n0 : Btw _ (dy 11886670559 (-33)) (dy 11886671191 (-33)) _ :=
    iv_mul hhalf z (rep_dy (by norm_num) (by norm_num) (by norm_num)) (rep_dy (by norm_num) (by norm_num) (by norm_num)) (by iv) (by iv) (by iv) (by iv)
  have c : Btw _ (dy 15528530545 (-78)) (dy 15528555089 (-78)) _ :=
    iv_mul R2 hb2 (rep_dy (by norm_num) (by norm_num) (by norm_num)) (rep_dy (by norm_num) (by norm_num) (by norm_num)) (by iv) (by iv) (by iv) (by iv)
  have n1 : Btw _ (dy 12301641683 (-110)) (dy 12301666648 (-110)) _ :=
    iv_mul ht1 c (rep_dy (by norm_num) (by norm_num) (by norm_num)) (rep_dy (by norm_num) (by norm_num) (by norm_num)) (by iv) (by iv) (by iv) (by iv)
  have n2 : Btw _ (dy 10586396353 (-35)) (dy 10586396885 (-35)) _ :=
    iv_mul ht2 b (rep_dy (by norm_num) (by norm_num) (by norm_num)) (rep_dy (by norm_num) (by norm_num) (by norm_num)) (by iv) (by iv) (by iv) (by iv)
  have h0 : Btw _ (dy 11886670559 (-34)) (dy 11886671191 (-34)) _ :=
    iv_div n0 htwo (rep_dy (by norm_num) (by norm_num) (by norm_num)) (rep_dy (by norm_num) (by norm_num) (by norm_num)) (by iv) (by iv) (by iv) (by iv)
  have h1 : Btw _ (dy 17179868735 (-34)) (dy 8589934817 (-33)) _ :=
    iv_add h0 n2 (rep_dy (by norm_num) (by norm_num) (by norm_num)) (rep_dy (by norm_num) (by norm_num) (by norm_num)) (by iv) (by iv)
  have r0 : Btw _ (dy 10258323151 (-34)) (dy 10258323916 (-34)) _ :=
    iv_pow hg h0 (rep_dy (by norm_num) (by norm_num) (by norm_num)) (rep_dy (by norm_num) (by norm_num) (by norm_num)) (by iv) (by iv) (by iv) (by iv) (by iv)
  have r1 : Btw _ (dy 17179868555 (-34)) (dy 8589934908 (-33)) _ :=
    iv_pow hg h1 (rep_dy (by norm_num) (by norm_num) (by norm_num)) (rep_dy (by norm_num) (by norm_num) (by norm_num)) (by iv) (by iv) (by iv) (by iv) (by iv)
  have r2 : Btw _ (dy 16313921133 (-141)) (dy 16313967485 (-141)) _ :=
    iv_pow hg n1 (rep_dy (by norm_num) (by norm_num) (by norm_num)) (rep_dy (by norm_num) (by norm_num) (by norm_num)) (by iv) (by iv) (by iv) (by iv) (by iv)
  have q : Btw _ (dy 17179868555 (-34)) (dy 8589934909 (-33)) _ :=
    iv_add r1 r2 (rep_dy (by norm_num) (by norm_num) (by norm_num)) (rep_dy (by norm_num) (by norm_num) (by norm_num)) (by iv) (by iv)
  have u0 : Btw _ (dy 1 0) (dy 1 0) _ := iv_self r0 (by iv)
  have s1 : Btw _ (dy 17179867921 (-34)) (dy 8589935223 (-33)) _ :=
    iv_div r1 q (rep_dy (by norm_num) (by norm_num) (by norm_num)) (rep_dy (by norm_num) (by norm_num) (by norm_num)) (by iv) (by iv) (by iv) (by iv)
  have s2 : Btw _ (dy 16313920530 (-141)) (dy 16313968083 (-141)) _ :=
    iv_div r2 q (rep_dy (by norm_num) (by norm_num) (by norm_num)) (rep_dy (by norm_num) (by norm_num) (by norm_num)) (by iv) (by iv) (by iv) (by iv)
  have B0 : Btw _ (dy 11886670559 (-34)) (dy 11886671191 (-34)) _ :=
    iv_mul h0 u0 (rep_dy (by norm_num) (by norm_num) (by norm_num)) (rep_dy (by norm_num) (by norm_num) (by norm_num)) (by iv) (by iv) (by iv) (by iv)
  have B1 : Btw _ (dy 17179867472 (-34)) (dy 8589935449 (-33)) _ :=
    iv_mul h1 s1 (rep_dy (by norm_num) (by norm_num) (by norm_num)) (rep_dy (by norm_num) (by norm_num) (by norm_num)) (by iv) (by iv) (by iv) (by iv)
  have B2 : Btw _ (dy 11681579333 (-217)) (dy 11681637091 (-217)) _ :=
    iv_mul n1 s2 (rep_dy (by norm_num) (by norm_num) (by norm_num)) (rep_dy (by norm_num) (by norm_num) (by norm_num)) (by iv) (by iv) (by iv) (by iv)
  have nt1 : Btw _ (dy 8889814123 (-110)) (dy 8889832637 (-110)) _ :=
    iv_div n1 n0 (rep_dy (by norm_num) (by norm_num) (by norm_num)) (rep_dy (by norm_num) (by norm_num) (by norm_num)) (by iv) (by iv) (by iv) (by iv)
  have nt2 : Btw _ (dy 15300575035 (-36)) (dy 15300576618 (-36)) _ :=
    iv_div n2 n0 (rep_dy (by norm_num) (by norm_num) (by norm_num)) (rep_dy (by norm_num) (by norm_num) (by norm_num)) (by iv) (by iv) (by iv) (by iv)
  have nb0 : Btw _ (dy 11886669373 (-34)) (dy 11886672376 (-34)) _ :=
    iv_div B0 B1 (rep_dy (by norm_num) (by norm_num) (by norm_num)) (rep_dy (by norm_num) (by norm_num) (by norm_num)) (by iv) (by iv) (by iv) (by iv)
  have nb1 : Btw _ (dy 1 0) (dy 1 0) _ := iv_self B1 (by iv)
  have nb2 : Btw _ (dy 11681578167 (-217)) (dy 11681638256 (-217)) _ :=
    iv_div B2 B1 (rep_dy (by norm_num) (by norm_num) (by norm_num)) (rep_dy (by norm_num) (by norm_num) (by norm_num)) (by iv) (by iv) (by iv) (by iv)
  exact ⟨⟨nt1, nt2, nb0, nb1, nb2⟩, above H1 (by iv), above ht1 (by iv), below n1 n0 (by iv) (by iv) (by iv),
    below n2 n0 (by iv) (by iv) (by iv), below B0 B1 (by iv) (by iv) (by iv), below B2 B1 (by iv) (by iv) (by iv), above r0 (by iv)⟩

theorem pool_step6 {g : FP (.binary64 ω)} (hg : NearSevenFifths g) {p : PoolState (.binary64 ω)}
    (h : PoolIn p (dy 8889814123 (-110)) (dy 8889832637 (-110)) (dy 15300575035 (-36)) (dy 15300576618 (-36)) (dy 11886669373 (-34)) (dy 11886672376 (-34)) (dy 1 0) (dy 1 0) (dy 11681578167 (-217)) (dy 11681638256 (-217))) : PoolIn (poolNext g p) (dy 16883411228 (-218)) (dy 16883570808 (-218)) (dy 15300573699 (-36)) (dy 15300577955 (-36)) (dy 11886666853 (-34)) (dy 11886674895 (-34)) (dy 1 0) (dy 1 0) (dy 11852160386 (-474)) (dy 11852433862 (-474)) ∧ PoolOk g p := by
  obtain ⟨ht1, ht2, hb0, hb1, hb2⟩ := h
  have hhalf := btw_half (ω := ω)
  have htwo := btw_two (ω := ω)
  have H1 : Btw _ (dy 12415078350 (-34)) (dy 12415078747 (-34)) _ :=
    iv_add hhalf ht2 (rep_dy (by norm_num) (by norm_num) (by norm_num)) (rep_dy (by norm_num) (by norm_num) (by norm_num)) (by iv) (by iv)
  have R1 : Btw _ (dy 11886670684 (-33)) (dy 11886671065 (-33)) _ :=
    iv_inv H1 (rep_dy (by norm_num) (by norm_num) (by norm_num)) (rep_dy (by norm_num) (by norm_num) (by norm_num)) (by iv) (by iv) (by iv)
  have R2 : Btw _ (dy 16600307184 43) (dy 16600341757 43) _ :=
    iv_inv ht1 (rep_dy (by norm_num) (by norm_num) (by norm_num)) (rep_dy (by norm_num) (by norm_num) (by norm_num)) (by iv) (by iv) (by iv)
  have a : Btw _ (dy 11886669373 (-33)) (dy 11886672376 (-33)) _ :=
    iv_mul htwo hb0 (rep_dy (by norm_num) (by norm_num) (by norm_num)) (rep_dy (by norm_num) (by norm_num) (by norm_num)) (by iv) (by iv) (by iv) (by iv)
  have b : Btw _ (dy 11886670684 (-33)) (dy 11886671065 (-33)) _ :=
    iv_mul R1 hb1 (rep_dy (by norm_num) (by norm_num) (by norm_num)) (rep_dy (by norm_num) (by norm_num) (by norm_num)) (by iv) (by iv) (by iv) (by iv)
  have z : Btw _ (dy 11886670028 (-32)) (dy 11886671721 (-32)) _ :=
    iv_add a b (rep_dy (by norm_num) (by norm_num) (by norm_num)) (rep_dy (by norm_num) (by norm_num) (by norm_num)) (by iv) (by iv)
  have n0 : Btw _ (dy 11886670028 (-33)) (dy 11886671721 (-33)) _ :=
    iv_mul hhalf z (rep_dy (by norm_num) (by norm_num) (by norm_num)) (rep_dy (by norm_num) (by norm_num) (by norm_num)) (by iv) (by iv) (by iv) (by iv)
  have c : Btw _ (dy 11287500730 (-140)) (dy 11287582301 (-140)) _ :=
    iv_mul R2 hb2 (rep_dy (by norm_num) (by norm_num) (by norm_num)) (rep_dy (by norm_num) (by norm_num) (by norm_num)) (by iv) (by iv) (by iv) (by iv)
  have n1 : Btw _ (dy 11681553838 (-217)) (dy 11681662586 (-217)) _ :=
    iv_mul ht1 c (rep_dy (by norm_num) (by norm_num) (by norm_num)) (rep_dy (by norm_num) (by norm_num) (by norm_num)) (by iv) (by iv) (by iv) (by iv)
  have n2 : Btw _ (dy 10586395901 (-35)) (dy 10586397337 (-35)) _ :=
    iv_mul ht2 b (rep_dy (by norm_num) (by norm_num) (by norm_num)) (rep_dy (by norm_num) (by norm_num) (by norm_num)) (by iv) (by iv) (by iv) (by iv)
  have h0 : Btw _ (dy 11886670028 (-34)) (dy 11886671721 (-34)) _ :=
    iv_div n0 htwo (rep_dy (by norm_num) (by norm_num) (by norm_num)) (rep_dy (by norm_num) (by norm_num) (by norm_num)) (by iv) (by iv) (by iv) (by iv)
  have h1 : Btw _ (dy 17179867978 (-34)) (dy 8589935195 (-33)) _ :=
    iv_add h0 n2 (rep_dy (by norm_num) (by norm_num) (by norm_num)) (rep_dy (by norm_num) (by norm_num) (by norm_num)) (by iv) (by iv)
  have r0 : Btw _ (dy 10258322510 (-34)) (dy 10258324556 (-34)) _ :=
    iv_pow hg h0 (rep_dy (by norm_num) (by norm_num) (by norm_num)) (rep_dy (by norm_num) (by norm_num) (by norm_num)) (by iv) (by iv) (by iv) (by iv) (by iv)
  have r1 : Btw _ (dy 17179867495 (-34)) (dy 8589935437 (-33)) _ :=
    iv_pow hg h1 (rep_dy (by norm_num) (by norm_num) (by norm_num)) (rep_dy (by norm_num) (by norm_num) (by norm_num)) (by iv) (by iv) (by iv) (by iv) (by iv)
  have r2 : Btw _ (dy 8715391902 (-290)) (dy 8715505492 (-290)) _ :=
    iv_pow hg n1 (rep_dy (by norm_num) (by norm_num) (by norm_num)) (rep_dy (by norm_num) (by norm_num) (by norm_num)) (by iv) (by iv) (by iv) (by iv) (by iv)
  have q : Btw _ (dy 17179867495 (-34)) (dy 8589935438 (-33)) _ :=
    iv_add r1 r2 (rep_dy (by norm_num) (by norm_num) (by norm_num)) (rep_dy (by norm_num) (by norm_num) (by norm_num)) (by iv) (by iv)
  have u0 : Btw _ (dy 1 0) (dy 1 0) _ := iv_self r0 (by iv)
  have s1 : Btw _ (dy 17179865803 (-34)) (dy 8589936282 (-33)) _ :=
    iv_div r1 q (rep_dy (by norm_num) (by norm_num) (by norm_num)) (rep_dy (by norm_num) (by norm_num) (by norm_num)) (by iv) (by iv) (by iv) (by iv)
  have s2 : Btw _ (dy 8715391043 (-290)) (dy 8715506349 (-290)) _ :=
    iv_div r2 q (rep_dy (by norm_num) (by norm_num) (by norm_num)) (rep_dy (by norm_num) (by norm_num) (by norm_num)) (by iv) (by iv) (by iv) (by iv)
  have B0 : Btw _ (dy 11886670028 (-34)) (dy 11886671721 (-34)) _ :=
    iv_mul h0 u0 (rep_dy (by norm_num) (by norm_num) (by norm_num)) (rep_dy (by norm_num) (by norm_num) (by norm_num)) (by iv) (by iv) (by iv) (by iv)
  have B1 : Btw _ (dy 17179864597 (-34)) (dy 8589936886 (-33)) _ :=
    iv_mul h1 s1 (rep_dy (by norm_num) (by norm_num) (by norm_num)) (rep_dy (by norm_num) (by norm_num) (by norm_num)) (by iv) (by iv) (by iv) (by iv)
  have B2 : Btw _ (dy 11852163552 (-474)) (dy 11852430697 (-474)) _ :=
    iv_mul n1 s2 (rep_dy (by norm_num) (by norm_num) (by norm_num)) (rep_dy (by norm_num) (by norm_num) (by norm_num)) (by iv) (by iv) (by iv) (by iv)
  have nt1 : Btw _ (dy 16883411228 (-218)) (dy 16883570808 (-218)) _ :=
    iv_div n1 n0 (rep_dy (by norm_num) (by norm_num) (by norm_num)) (rep_dy (by norm_num) (by norm_num) (by norm_num)) (by iv) (by iv) (by iv) (by iv)
  have nt2 : Btw _ (dy 15300573699 (-36)) (dy 15300577955 (-36)) _ :=
    iv_div n2 n0 (rep_dy (by norm_num) (by norm_num) (by norm_num)) (rep_dy (by norm_num) (by norm_num) (by norm_num)) (by iv) (by iv) (by iv) (by iv)
  have nb0 : Btw _ (dy 11886666853 (-34)) (dy 11886674895 (-34)) _ :=
    iv_div B0 B1 (rep_dy (by norm_num) (by norm_num) (by norm_num)) (rep_dy (by norm_num) (by norm_num) (by norm_num)) (by iv) (by iv) (by iv) (by iv)
  have nb1 : Btw _ (dy 1 0) (dy 1 0) _ := iv_self B1 (by iv)
  have nb2 : Btw _ (dy 11852160386 (-474)) (dy 11852433862 (-474)) _ :=
    iv_div B2 B1 (rep_dy (by norm_num) (by norm_num) (by norm_num)) (rep_dy (by norm_num) (by norm_num) (by norm_num)) (by iv) (by iv) (by iv) (by iv)
  exact ⟨⟨nt1, nt2, nb0, nb1, nb2⟩, above H1 (by iv), above ht1 (by iv), below n1 n0 (by iv) (by iv) (by iv),
    below n2 n0 (by iv) (by iv) (by iv), below B0 B1 (by iv) (by iv) (by iv), below B2 B1 (by iv) (by iv) (by iv), above r0 (by iv)⟩

theorem pool_step7 {g : FP (.binary64 ω)} (hg : NearSevenFifths g) {p : PoolState (.binary64 ω)}
    (h : PoolIn p (dy 16883411228 (-218)) (dy 16883570808 (-218)) (dy 15300573699 (-36)) (dy 15300577955 (-36)) (dy 11886666853 (-34)) (dy 11886674895 (-34)) (dy 1 0) (dy 1 0) (dy 11852160386 (-474)) (dy 11852433862 (-474))) : PoolIn (poolNext g p) (dy 17129825813 (-475)) (dy 17130551431 (-475)) (dy 15300570125 (-36)) (dy 15300581531 (-36)) (dy 11886660111 (-34)) (dy 11886681636 (-34)) (dy 1 0) (dy 1 0) (dy 107545 (-1074)) (dy 107559 (-1074)) ∧ PoolOk g p := by
  obtain ⟨ht1, ht2, hb0, hb1, hb2⟩ := h
  have hhalf := btw_half (ω := ω)
  have htwo := btw_two (ω := ω)
  have H1 : Btw _ (dy 12415078016 (-34)) (dy 12415079081 (-34)) _ :=
    iv_add hhalf ht2 (rep_dy (by norm_num) (by norm_num) (by norm_num)) (rep_dy (by norm_num) (by norm_num) (by norm_num)) (by iv) (by iv)
  have R1 : Btw _ (dy 11886670364 (-33)) (dy 11886671385 (-33)) _ :=
    iv_inv H1 (rep_dy (by norm_num) (by norm_num) (by norm_num)) (rep_dy (by norm_num) (by norm_num) (by norm_num)) (by iv) (by iv) (by iv)
  have R2 : Btw _ (dy 8740683725 151) (dy 8740766342 151) _ :=
    iv_inv ht1 (rep_dy (by norm_num) (by norm_num) (by norm_num)) (rep_dy (by norm_num) (by norm_num) (by norm_num)) (by iv) (by iv) (by iv)
  have a : Btw _ (dy 11886666853 (-33)) (dy 11886674895 (-33)) _ :=
    iv_mul htwo hb0 (rep_dy (by norm_num) (by norm_num) (by norm_num)) (rep_dy (by norm_num) (by norm_num) (by norm_num)) (by iv) (by iv) (by iv) (by iv)
  have b : Btw _ (dy 11886670364 (-33)) (dy 11886671385 (-33)) _ :=
    iv_mul R1 hb1 (rep_dy (by norm_num) (by norm_num) (by norm_num)) (rep_dy (by norm_num) (by norm_num) (by norm_num)) (by iv) (by iv) (by iv) (by iv)
  have z : Btw _ (dy 11886668608 (-32)) (dy 11886673140 (-32)) _ :=
    iv_add a b (rep_dy (by norm_num) (by norm_num) (by norm_num)) (rep_dy (by norm_num) (by norm_num) (by norm_num)) (by iv) (by iv)
  have n0 : Btw _ (dy 11886668608 (-33)) (dy 11886673140 (-33)) _ :=
    iv_mul hhalf z (rep_dy (by norm_num) (by norm_num) (by norm_num)) (rep_dy (by norm_num) (by norm_num) (by norm_num)) (by iv) (by iv) (by iv) (by iv)
  have c : Btw _ (dy 12060159979 (-290)) (dy 12060552251 (-290)) _ :=
    iv_mul R2 hb2 (rep_dy (by norm_num) (by norm_num) (by norm_num)) (rep_dy (by norm_num) (by norm_num) (by norm_num)) (by iv) (by iv) (by iv) (by iv)
  have n1 : Btw _ (dy 11852048360 (-474)) (dy 11852545892 (-474)) _ :=
    iv_mul ht1 c (rep_dy (by norm_num) (by norm_num) (by norm_num)) (rep_dy (by norm_num) (by norm_num) (by norm_num)) (by iv) (by iv) (by iv) (by iv)
  have n2 : Btw _ (dy 10586394692 (-35)) (dy 10586398547 (-35)) _ :=
    iv_mul ht2 b (rep_dy (by norm_num) (by norm_num) (by norm_num)) (rep_dy (by norm_num) (by norm_num) (by norm_num)) (by iv) (by iv) (by iv) (by iv)
  have h0 : Btw _ (dy 11886668608 (-34)) (dy 11886673140 (-34)) _ :=
    iv_div n0 htwo (rep_dy (by norm_num) (by norm_num) (by norm_num)) (rep_dy (by norm_num) (by norm_num) (by norm_num)) (by iv) (by iv) (by iv) (by iv)
  have h1 : Btw _ (dy 17179865954 (-34)) (dy 8589936207 (-33)) _ :=
    iv_add h0 n2 (rep_dy (by norm_num) (by norm_num) (by norm_num)) (rep_dy (by norm_num) (by norm_num) (by norm_num)) (by iv) (by iv)
  have r0 : Btw _ (dy 10258320794 (-34)) (dy 10258326271 (-34)) _ :=
    iv_pow hg h0 (rep_dy (by norm_num) (by norm_num) (by norm_num)) (rep_dy (by norm_num) (by norm_num) (by norm_num)) (by iv) (by iv) (by iv) (by iv) (by iv)
  have r1 : Btw _ (dy 17179864661 (-34)) (dy 8589936854 (-33)) _ :=
    iv_pow hg h1 (rep_dy (by norm_num) (by norm_num) (by norm_num)) (rep_dy (by norm_num) (by norm_num) (by norm_num)) (by iv) (by iv) (by iv) (by iv) (by iv)
  have r2 : Btw _ (dy 10216516477 (-650)) (dy 10217116908 (-650)) _ :=
    iv_pow hg n1 (rep_dy (by norm_num) (by norm_num) (by norm_num)) (rep_dy (by norm_num) (by norm_num) (by norm_num)) (by iv) (by iv) (by iv) (by iv) (by iv)
  have q : Btw _ (dy 17179864661 (-34)) (dy 8589936855 (-33)) _ :=
    iv_add r1 r2 (rep_dy (by norm_num) (by norm_num) (by norm_num)) (rep_dy (by norm_num) (by norm_num) (by norm_num)) (by iv) (by iv)
  have u0 : Btw _ (dy 1 0) (dy 1 0) _ := iv_self r0 (by iv)
  have s1 : Btw _ (dy 17179860135 (-34)) (dy 8589939116 (-33)) _ :=
    iv_div r1 q (rep_dy (by norm_num) (by norm_num) (by norm_num)) (rep_dy (by norm_num) (by norm_num) (by norm_num)) (by iv) (by iv) (by iv) (by iv)
  have s2 : Btw _ (dy 10216513785 (-650)) (dy 10217119598 (-650)) _ :=
    iv_div r2 q (rep_dy (by norm_num) (by norm_num) (by norm_num)) (rep_dy (by norm_num) (by norm_num) (by norm_num)) (by iv) (by iv) (by iv) (by iv)
  have B0 : Btw _ (dy 11886668608 (-34)) (dy 11886673140 (-34)) _ :=
    iv_mul h0 u0 (rep_dy (by norm_num) (by norm_num) (by norm_num)) (rep_dy (by norm_num) (by norm_num) (by norm_num)) (by iv) (by iv) (by iv) (by iv)
  have B1 : Btw _ (dy 17179856905 (-34)) (dy 8589940732 (-33)) _ :=
    iv_mul h1 s1 (rep_dy (by norm_num) (by norm_num) (by norm_num)) (rep_dy (by norm_num) (by norm_num) (by norm_num)) (by iv) (by iv) (by iv) (by iv)
  have B2 : Btw _ (dy 107546 (-1074)) (dy 107558 (-1074)) _ :=
    iv_mul n1 s2 (rep_dy (by norm_num) (by norm_num) (by norm_num)) (rep_dy (by norm_num) (by norm_num) (by norm_num)) (by iv) (by iv) (by iv) (by iv)
  have nt1 : Btw _ (dy 17129825813 (-475)) (dy 17130551431 (-475)) _ :=
    iv_div n1 n0 (rep_dy (by norm_num) (by norm_num) (by norm_num)) (rep_dy (by norm_num) (by norm_num) (by norm_num)) (by iv) (by iv) (by iv) (by iv)
  have nt2 : Btw _ (dy 15300570125 (-36)) (dy 15300581531 (-36)) _ :=
    iv_div n2 n0 (rep_dy (by norm_num) (by norm_num) (by norm_num)) (rep_dy (by norm_num) (by norm_num) (by norm_num)) (by iv) (by iv) (by iv) (by iv)
  have nb0 : Btw _ (dy 11886660111 (-34)) (dy 11886681636 (-34)) _ :=
    iv_div B0 B1 (rep_dy (by norm_num) (by norm_num) (by norm_num)) (rep_dy (by norm_num) (by norm_num) (by norm_num)) (by iv) (by iv) (by iv) (by iv)
  have nb1 : Btw _ (dy 1 0) (dy 1 0) _ := iv_self B1 (by iv)
  have nb2 : Btw _ (dy 107545 (-1074)) (dy 107559 (-1074)) _ :=
    iv_div B2 B1 (rep_dy (by norm_num) (by norm_num) (by norm_num)) (rep_dy (by norm_num) (by norm_num) (by norm_num)) (by iv) (by iv) (by iv) (by iv)
  exact ⟨⟨nt1, nt2, nb0, nb1, nb2⟩, above H1 (by iv), above ht1 (by iv), below n1 n0 (by iv) (by iv) (by iv),
    below n2 n0 (by iv) (by iv) (by iv), below B0 B1 (by iv) (by iv) (by iv), below B2 B1 (by iv) (by iv) (by iv), above r0 (by iv)⟩

theorem pool_step8 {g : FP (.binary64 ω)} (hg : NearSevenFifths g) {p : PoolState (.binary64 ω)}
    (h : PoolIn p (dy 17129825813 (-475)) (dy 17130551431 (-475)) (dy 15300570125 (-36)) (dy 15300581531 (-36)) (dy 11886660111 (-34)) (dy 11886681636 (-34)) (dy 1 0) (dy 1 0) (dy 107545 (-1074)) (dy 107559 (-1074))) : PoolIn (poolNext g p) (dy 77714 (-1074)) (dy 77732 (-1074)) (dy 15300560559 (-36)) (dy 15300591097 (-36)) (dy 11886642071 (-34)) (dy 11886699674 (-34)) (dy 1 0) (dy 1 0) (dy 0 0) (dy 0 0) ∧ PoolOk g p := by
  obtain ⟨ht1, ht2, hb0, hb1, hb2⟩ := h
  have hhalf := btw_half (ω := ω)
  have htwo := btw_two (ω := ω)
  have H1 : Btw _ (dy 12415077123 (-34)) (dy 12415079975 (-34)) _ :=
    iv_add hhalf ht2 (rep_dy (by norm_num) (by norm_num) (by norm_num)) (rep_dy (by norm_num) (by norm_num) (by norm_num)) (by iv) (by iv)
  have R1 : Btw _ (dy 11886669508 (-33)) (dy 11886672240 (-33)) _ :=
    iv_inv H1 (rep_dy (by norm_num) (by norm_num) (by norm_num)) (rep_dy (by norm_num) (by norm_num) (by norm_num)) (by iv) (by iv) (by iv)
  have R2 : Btw _ (dy 8614664459 408) (dy 8615029377 408) _ :=
    iv_inv ht1 (rep_dy (by norm_num) (by norm_num) (by norm_num)) (rep_dy (by norm_num) (by norm_num) (by norm_num)) (by iv) (by iv) (by iv)
  have a : Btw _ (dy 11886660111 (-33)) (dy 11886681636 (-33)) _ :=
    iv_mul htwo hb0 (rep_dy (by norm_num) (by norm_num) (by norm_num)) (rep_dy (by norm_num) (by norm_num) (by norm_num)) (by iv) (by iv) (by iv) (by iv)
  have b : Btw _ (dy 11886669508 (-33)) (dy 11886672240 (-33)) _ :=
    iv_mul R1 hb1 (rep_dy (by norm_num) (by norm_num) (by norm_num)) (rep_dy (by norm_num) (by norm_num) (by norm_num)) (by iv) (by iv) (by iv) (by iv)
  have z : Btw _ (dy 11886664809 (-32)) (dy 11886676938 (-32)) _ :=
    iv_add a b (rep_dy (by norm_num) (by norm_num) (by norm_num)) (rep_dy (by norm_num) (by norm_num) (by norm_num)) (by iv) (by iv)
  have n0 : Btw _ (dy 11886664809 (-33)) (dy 11886676938 (-33)) _ :=
    iv_mul hhalf z (rep_dy (by norm_num) (by norm_num) (by norm_num)) (rep_dy (by norm_num) (by norm_num) (by norm_num)) (by iv) (by iv) (by iv) (by iv)
  have c : Btw _ (dy 14136720111 (-650)) (dy 14139159314 (-650)) _ :=
    iv_mul R2 hb2 (rep_dy (by norm_num) (by norm_num) (by norm_num)) (rep_dy (by norm_num) (by norm_num) (by norm_num)) (by iv) (by iv) (by iv) (by iv)
  have n1 : Btw _ (dy 107540 (-1074)) (dy 107564 (-1074)) _ :=
    iv_mul ht1 c (rep_dy (by norm_num) (by norm_num) (by norm_num)) (rep_dy (by norm_num) (by norm_num) (by norm_num)) (by iv) (by iv) (by iv) (by iv)
  have n2 : Btw _ (dy 10586391456 (-35)) (dy 10586401782 (-35)) _ :=
    iv_mul ht2 b (rep_dy (by norm_num) (by norm_num) (by norm_num)) (rep_dy (by norm_num) (by norm_num) (by norm_num)) (by iv) (by iv) (by iv) (by iv)
  have h0 : Btw _ (dy 11886664809 (-34)) (dy 11886676938 (-34)) _ :=
    iv_div n0 htwo (rep_dy (by norm_num) (by norm_num) (by norm_num)) (rep_dy (by norm_num) (by norm_num) (by norm_num)) (by iv) (by iv) (by iv) (by iv)
  have h1 : Btw _ (dy 17179860537 (-34)) (dy 8589938915 (-33)) _ :=
    iv_add h0 n2 (rep_dy (by norm_num) (by norm_num) (by norm_num)) (rep_dy (by norm_num) (by norm_num) (by norm_num)) (by iv) (by iv)
  have r0 : Btw _ (dy 10258316204 (-34)) (dy 10258330859 (-34)) _ :=
    iv_pow hg h0 (rep_dy (by norm_num) (by norm_num) (by norm_num)) (rep_dy (by norm_num) (by norm_num) (by norm_num)) (by iv) (by iv) (by iv) (by iv) (by iv)
  have r1 : Btw _ (dy 17179857078 (-34)) (dy 8589940645 (-33)) _ :=
    iv_pow hg h1 (rep_dy (by norm_num) (by norm_num) (by norm_num)) (rep_dy (by norm_num) (by norm_num) (by norm_num)) (by iv) (by iv) (by iv) (by iv) (by iv)
  have r2 : Btw _ (dy 0 0) (dy 0 0) _ := iv_pow_tiny hg n1 (by iv) (by iv)
  have q : Btw _ (dy 17179857078 (-34)) (dy 8589940645 (-33)) _ :=
    iv_add r1 r2 (rep_dy (by norm_num) (by norm_num) (by norm_num)) (rep_dy (by norm_num) (by norm_num) (by norm_num)) (by iv) (by iv)
  have u0 : Btw _ (dy 1 0) (dy 1 0) _ := iv_self r0 (by iv)
  have s1 : Btw _ (dy 17179844972 (-34)) (dy 8589946699 (-33)) _ :=
    iv_div r1 q (rep_dy (by norm_num) (by norm_num) (by norm_num)) (rep_dy (by norm_num) (by norm_num) (by norm_num)) (by iv) (by iv) (by iv) (by iv)
  have s2 : Btw _ (dy 0 0) (dy 0 0) _ :=
    iv_div r2 q (rep_dy (by norm_num) (by norm_num) (by norm_num)) (rep_dy (by norm_num) (by norm_num) (by norm_num)) (by iv) (by iv) (by iv) (by iv)
  have B0 : Btw _ (dy 11886664809 (-34)) (dy 11886676938 (-34)) _ :=
    iv_mul h0 u0 (rep_dy (by norm_num) (by norm_num) (by norm_num)) (rep_dy (by norm_num) (by norm_num) (by norm_num)) (by iv) (by iv) (by iv) (by iv)
  have B1 : Btw _ (dy 17179836325 (-34)) (dy 8589951023 (-33)) _ :=
    iv_mul h1 s1 (rep_dy (by norm_num) (by norm_num) (by norm_num)) (rep_dy (by norm_num) (by norm_num) (by norm_num)) (by iv) (by iv) (by iv) (by iv)
  have B2 : Btw _ (dy 0 0) (dy 0 0) _ :=
    iv_mul n1 s2 (rep_dy (by norm_num) (by norm_num) (by norm_num)) (rep_dy (by norm_num) (by norm_num) (by norm_num)) (by iv) (by iv) (by iv) (by iv)
  have nt1 : Btw _ (dy 77714 (-1074)) (dy 77732 (-1074)) _ :=
    iv_div n1 n0 (rep_dy (by norm_num) (by norm_num) (by norm_num)) (rep_dy (by norm_num) (by norm_num) (by norm_num)) (by iv) (by iv) (by iv) (by iv)
  have nt2 : Btw _ (dy 15300560559 (-36)) (dy 15300591097 (-36)) _ :=
    iv_div n2 n0 (rep_dy (by norm_num) (by norm_num) (by norm_num)) (rep_dy (by norm_num) (by norm_num) (by norm_num)) (by iv) (by iv) (by iv) (by iv)
  have nb0 : Btw _ (dy 11886642071 (-34)) (dy 11886699674 (-34)) _ :=
    iv_div B0 B1 (rep_dy (by norm_num) (by norm_num) (by norm_num)) (rep_dy (by norm_num) (by norm_num) (by norm_num)) (by iv) (by iv) (by iv) (by iv)
  have nb1 : Btw _ (dy 1 0) (dy 1 0) _ := iv_self B1 (by iv)
  have nb2 : Btw _ (dy 0 0) (dy 0 0) _ :=
    iv_div B2 B1 (rep_dy (by norm_num) (by norm_num) (by norm_num)) (rep_dy (by norm_num) (by norm_num) (by norm_num)) (by iv) (by iv) (by iv) (by iv)
  exact ⟨⟨nt1, nt2, nb0, nb1, nb2⟩, above H1 (by iv), above ht1 (by iv), below n1 n0 (by iv) (by iv) (by iv),
    below n2 n0 (by iv) (by iv) (by iv), below B0 B1 (by iv) (by iv) (by iv), below B2 B1 (by iv) (by iv) (by iv), above r0 (by iv)⟩

theorem pool_last {g : FP (.binary64 ω)} (hg : NearSevenFifths g) {p : PoolState (.binary64 ω)}
    (h : PoolIn p (dy 77714 (-1074)) (dy 77732 (-1074)) (dy 15300560559 (-36)) (dy 15300591097 (-36)) (dy 11886642071 (-34)) (dy 11886699674 (-34)) (dy 1 0) (dy 1 0) (dy 0 0) (dy 0 0)) : PoolLast g p := by
  obtain ⟨ht1, ht2, hb0, hb1, hb2⟩ := h
  have hhalf := btw_half (ω := ω)
  have htwo := btw_two (ω := ω)
  have H1 : Btw _ (dy 12415074731 (-34)) (dy 12415082367 (-34)) _ :=
    iv_add hhalf ht2 (rep_dy (by norm_num) (by norm_num) (by norm_num)) (rep_dy (by norm_num) (by norm_num) (by norm_num)) (by iv) (by iv)
  have R1 : Btw _ (dy 11886667218 (-33)) (dy 11886674530 (-33)) _ :=
    iv_inv H1 (rep_dy (by norm_num) (by norm_num) (by norm_num)) (rep_dy (by norm_num) (by norm_num) (by norm_num)) (by iv) (by iv) (by iv)
  have a : Btw _ (dy 11886642071 (-33)) (dy 11886699674 (-33)) _ :=
    iv_mul htwo hb0 (rep_dy (by norm_num) (by norm_num) (by norm_num)) (rep_dy (by norm_num) (by norm_num) (by norm_num)) (by iv) (by iv) (by iv) (by iv)
  have b : Btw _ (dy 11886667218 (-33)) (dy 11886674530 (-33)) _ :=
    iv_mul R1 hb1 (rep_dy (by norm_num) (by norm_num) (by norm_num)) (rep_dy (by norm_num) (by norm_num) (by norm_num)) (by iv) (by iv) (by iv) (by iv)
  have z : Btw _ (dy 11886654644 (-32)) (dy 11886687102 (-32)) _ :=
    iv_add a b (rep_dy (by norm_num) (by norm_num) (by norm_num)) (rep_dy (by norm_num) (by norm_num) (by norm_num)) (by iv) (by iv)
  have n0 : Btw _ (dy 11886654644 (-33)) (dy 11886687102 (-33)) _ :=
    iv_mul hhalf z (rep_dy (by norm_num) (by norm_num) (by norm_num)) (rep_dy (by norm_num) (by norm_num) (by norm_num)) (by iv) (by iv) (by iv) (by iv)
  have n2 : Btw _ (dy 10586382798 (-35)) (dy 10586410440 (-35)) _ :=
    iv_mul ht2 b (rep_dy (by norm_num) (by norm_num) (by norm_num)) (rep_dy (by norm_num) (by norm_num) (by norm_num)) (by iv) (by iv) (by iv) (by iv)
  have h0 : Btw _ (dy 11886654644 (-34)) (dy 11886687102 (-34)) _ :=
    iv_div n0 htwo (rep_dy (by norm_num) (by norm_num) (by norm_num)) (rep_dy (by norm_num) (by norm_num) (by norm_num)) (by iv) (by iv) (by iv) (by iv)
  have r0 : Btw _ (dy 10258303922 (-34)) (dy 10258343140 (-34)) _ :=
    iv_pow hg h0 (rep_dy (by norm_num) (by norm_num) (by norm_num)) (rep_dy (by norm_num) (by norm_num) (by norm_num)) (by iv) (by iv) (by iv) (by iv) (by iv)
  have u0 : Btw _ (dy 1 0) (dy 1 0) _ := iv_self r0 (by iv)
  have B0 : Btw _ (dy 11886654644 (-34)) (dy 11886687102 (-34)) _ :=
    iv_mul h0 u0 (rep_dy (by norm_num) (by norm_num) (by norm_num)) (rep_dy (by norm_num) (by norm_num) (by norm_num)) (by iv) (by iv) (by iv) (by iv)
  have nt2 : Btw _ (dy 15300534963 (-36)) (dy 15300616695 (-36)) _ :=
    iv_div n2 n0 (rep_dy (by norm_num) (by norm_num) (by norm_num)) (rep_dy (by norm_num) (by norm_num) (by norm_num)) (by iv) (by iv) (by iv) (by iv)
  exact ⟨above H1 (by iv), above ht1 (by iv), below n2 n0 (by iv) (by iv) (by iv), above B0 (by iv), iv_inv_huge ht1 (by iv) (by iv),
    iv_zero hb2, nt2.mono (by iv) (by iv)⟩

/-- The state after `j` iterations. -/
noncomputable def poolSeq (g : FP (.binary64 ω)) : Nat → PoolState (.binary64 ω)
  | 0 => ⟨FP.fin 1, FP.fin 1, FP.fin 1, FP.fin (1 / 2), FP.fin (1 / 2)⟩
  | j + 1 => poolNext g (poolSeq g j)

theorem pool_seq {g : FP (.binary64 ω)} (hg : NearSevenFifths g) :
    (∀ j, j < 9 → PoolOk g (poolSeq g j)) ∧ PoolLast g (poolSeq g 9) := by
  have one : Btw (.binary64 ω) (dy 8589934592 (-33)) (dy 8589934592 (-33)) (FP.fin 1) := by
    have e : dy 8589934592 (-33) = 1 := by iv
    rw [e]
    exact ⟨1, rfl, rep_one, le_rfl, le_rfl⟩
  have half : Btw (.binary64 ω) (dy 8589934592 (-34)) (dy 8589934592 (-34)) (FP.fin (1 / 2)) := by
    have e : dy 8589934592 (-34) = dy 1 (-1) := by iv
    rw [e]
    exact btw_half
  have s0 := pool_step0 hg (p := poolSeq g 0) ⟨one, one, one, half, half⟩
  have s1 := pool_step1 hg (p := poolSeq g 1) s0.1
  have s2 := pool_step2 hg (p := poolSeq g 2) s1.1
  have s3 := pool_step3 hg (p := poolSeq g 3) s2.1
  have s4 := pool_step4 hg (p := poolSeq g 4) s3.1
  have s5 := pool_step5 hg (p := poolSeq g 5) s4.1
  have s6 := pool_step6 hg (p := poolSeq g 6) s5.1
  have s7 := pool_step7 hg (p := poolSeq g 7) s6.1
  have s8 := pool_step8 hg (p := poolSeq g 8) s7.1
  refine ⟨fun j hj => ?_, pool_last hg s8.1⟩
  match j, hj with
  | 0, _ => exact s0.2
  | 1, _ => exact s1.2
  | 2, _ => exact s2.2
  | 3, _ => exact s3.2
  | 4, _ => exact s4.2
  | 5, _ => exact s5.2
  | 6, _ => exact s6.2
  | 7, _ => exact s7.2
  | 8, _ => exact s8.2

end TD
