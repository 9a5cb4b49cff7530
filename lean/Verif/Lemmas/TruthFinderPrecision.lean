import Verif.Lemmas.TruthFinderDouble
import Verif.Lemmas.CrhPrecision
/-! The rounding errors of one iteration of TruthFinder without implications. -/

namespace TD
open Spec Double
attribute [-instance] instBEqProd

variable {ω : Platform}
local notation "D" => FP (Rounding.binary64 ω)

/-- Small relative errors. -/
theorem near_of_abs {m : Nat} {x y : ℝ} (hx : 0 ≤ x) (hy : 0 ≤ y) (h1 : |y - x| ≤ m * uu * x) (h2 : |y - x| ≤ m * uu * y)
    (hm : 2 * (m * uu) ≤ 1) : Near (2 * m) x y := by
  have hu := uu_pos
  have hmu : 0 ≤ (m : ℝ) * uu := by positivity
  have key : (1 - uu) ^ (2 * m) ≤ 1 - m * uu := by
    have hb : 1 + ((2 * m : Nat) : ℝ) * uu ≤ (1 + uu) ^ (2 * m) := one_add_mul_le_pow (by linarith) _
    push_cast at hb
    have hp : (1 - uu) ^ (2 * m) * (1 + uu) ^ (2 * m) ≤ 1 := by
      rw [← mul_pow]
      refine pow_le_one₀ (mul_nonneg one_sub_pos.le (by linarith)) ?_
      nlinarith
    have hq := pow_sub_pos (2 * m)
    have h3 : (1 - uu) ^ (2 * m) * (1 + 2 * (m * uu)) ≤ 1 := by
      refine le_trans (mul_le_mul_of_nonneg_left ?_ hq.le) hp
      linarith
    generalize (1 - uu) ^ (2 * m) = q at *
    generalize (m : ℝ) * uu = a at *
    nlinarith
  rw [abs_le] at h1 h2
  constructor
  · refine (mul_le_mul_of_nonneg_left key hx).trans ?_
    nlinarith [h1.1]
  · refine (mul_le_mul_of_nonneg_left key hy).trans ?_
    nlinarith [h2.2]

/-- The weight of a source with a trust score below 1. -/
theorem tau_near {t : ℝ} (ht : IsDouble t) (h0 : 1 / 4 ≤ t) (h1 : t < 1) :
    ∃ y, tfTau (FP.fin t : D) = FP.fin y ∧ Rep (.binary64 ω) y ∧ Away 2 y ∧ y ≤ 64 ∧ 0 < y ∧ Near 18 (-Real.log (1 - t)) y := by
  have hu := uu_pos
  have hu1 := uu_le
  have hb2 : (2 : ℝ) ≤ big := by have := le_big (k := 1) (by norm_num); simpa using this
  have hlow : (2 : ℝ) ^ (-53 : ℤ) ≤ 1 - t := by
    rcases double_sub_one ht (by linarith) with h | h
    · linarith
    · rwa [abs_sub_comm, abs_of_pos (by linarith)] at h
  obtain ⟨z, hz, -, ez⟩ := add_err (ω := ω) isDouble_one ht.neg (by rw [← sub_eq_add_neg, abs_of_pos (by linarith)]; linarith)
  rw [← sub_eq_add_neg] at hz ez
  have r34 : Rep (.binary64 ω) (3 / 4) := by
    refine (C31_nearest _).2.2.2 ⟨3, -2, by norm_num, by norm_num, by norm_num, by norm_num⟩
  obtain ⟨z', hz', -, z1, z2⟩ := rnd_between (R := .binary64 ω) (rep64_pow (e := -53) (by norm_num) (by norm_num)) r34 hlow
    (by linarith : 1 - t ≤ 3 / 4)
  obtain rfl : z' = z := by rw [hz] at hz'; injection hz' with h; exact h.symm
  have zpos : 0 < z' := (two_zpow_pos _).trans_le z1
  have tpos : 0 < 1 - t := by linarith
  rw [abs_of_pos tpos] at ez
  have nz : Near 1 (1 - t) z' := by
    rw [abs_le] at ez
    constructor
    · rw [pow_one]; nlinarith
    · rw [pow_one]; nlinarith
  have hl := nz.log tpos zpos
  have q0 : 1 / 4 ≤ -Real.log (1 - t) := by
    have := Real.log_le_sub_one_of_pos tpos
    linarith
  have q1 : 1 / 4 ≤ -Real.log z' := by
    have := Real.log_le_sub_one_of_pos zpos
    linarith
  have q2 : -Real.log z' ≤ ((64 : Nat) : ℝ) := by
    have h2 := Real.log_le_log (two_zpow_pos _) z1
    rw [Real.log_zpow] at h2
    have := Real.log_two_lt_d9
    push_cast at h2 ⊢
    linarith
  have n1 : Near 16 (-Real.log (1 - t)) (-Real.log z') := by
    have e : |(-Real.log z') - (-Real.log (1 - t))| ≤ 2 * uu := by
      rw [← abs_neg]
      refine le_trans (le_of_eq ?_) (hl.trans (by norm_num))
      congr 1; ring
    refine near_of_abs (m := 8) (by linarith) (by linarith) ?_ ?_ (by push_cast; linarith)
    · refine e.trans ?_
      push_cast
      nlinarith
    · refine e.trans ?_
      push_cast
      nlinarith
  have aw : Away 2 (-Real.log z') := .inr (by refine le_trans (le_of_eq ?_) q1; norm_num)
  obtain ⟨y, hy, yr, yn, yw, yb⟩ := near_lib (ω := ω) (p := 2) (by norm_num) aw (rep_nat_bound (n := 64) (by norm_num)).1 q2
    (by have := le_big (k := 7) (by norm_num); norm_num at this ⊢; exact this) (ω.logErr_le z')
  have ypos : 0 < y := lt_of_lt_of_le (mul_pos (by linarith) (pow_sub_pos 2)) yn.1
  refine ⟨y, ?_, yr, yw, by simpa using yb, ypos, n1.trans yn⟩
  unfold tfTau
  have h2 : (FP.fin 1 -. FP.fin t : D) = FP.fin z' := by
    rw [fp_sub_fin (.binary64 ω)]; exact hz
  have h3 : (Arith.log (FP.fin z' : D) : D) = FP.fin (-y) := by
    show FNum.log _ (.fin z') = _
    simp only [FNum.log]
    rw [if_neg (by linarith), if_neg zpos.ne']
    have e : (Rounding.binary64 ω).logv z' = -(-Real.log z' * (1 + ω.logErr z')) := by
      show Real.log z' * (1 + ω.logErr z') = _
      ring
    rw [e, Rounding.odd, hy]; rfl
  rw [FP.one_eq, h2, h3]
  show FNum.neg (.fin (-y)) = _
  simp [FNum.neg, FP.fin]

/-- Trust scores above 1 have no weight. -/
theorem tau_over {t : ℝ} (ht : IsDouble t) (h : 1 < t) : tfTau (FP.fin t : D) = FP.nan := by
  unfold tfTau
  have key : ∃ z : FNum, (Rounding.binary64 ω).rnd (1 - t) = z ∧ (z = .ninf ∨ ∃ y, z = .fin y ∧ y < 0) := by
    refine ⟨_, rfl, ?_⟩
    by_cases hb : |1 - t| ≤ big
    · obtain ⟨z, hz, -, ez⟩ := add_err (ω := ω) isDouble_one ht.neg (by rwa [← sub_eq_add_neg])
      rw [← sub_eq_add_neg] at hz ez
      refine .inr ⟨z, hz, ?_⟩
      rw [abs_of_neg (by linarith : 1 - t < 0), abs_le] at ez
      have := uu_lt_one
      nlinarith [ez.2]
    · have hb' : big < t - 1 := by
        rw [not_le, abs_of_neg (by linarith)] at hb
        linarith
      cases hz : (Rounding.binary64 ω).rnd (1 - t) with
      | nan => exact absurd hz ((Rounding.binary64 ω).notNan _)
      | ninf => exact .inl rfl
      | pinf =>
        have := (C31_nearest (ω := ω) (1 - t)).2.1.1 hz
        have h9 : (0 : ℝ) < 2 ^ (1024 : ℤ) - 2 ^ (970 : ℤ) := sub_pos.2 (zpow_lt_zpow_right₀ one_lt_two (by norm_num))
        generalize (2 : ℝ) ^ (1024 : ℤ) - 2 ^ (970 : ℤ) = q at *
        linarith
      | fin y =>
        refine .inr ⟨y, rfl, ?_⟩
        have m := (Rounding.binary64 ω).mono (1 - t) (-1) (by
          have : (1 : ℝ) ≤ big := by have := le_big (k := 0) (by norm_num); simpa using this
          linarith)
        have r : (Rounding.binary64 ω).rnd (-1) = .fin (-1) := rep_neg rep_one
        rw [hz, r] at m
        have : y ≤ -1 := by
          simp only [FNum.toEReal] at m
          exact_mod_cast m
        linarith
  obtain ⟨z, hz, h2⟩ := key
  have e : (FP.fin 1 -. FP.fin t : D) = z := by rw [fp_sub_fin (.binary64 ω)]; exact hz
  rw [FP.one_eq, e]
  rcases h2 with rfl | ⟨y, rfl, hy⟩
  · rfl
  · show FNum.neg (FNum.log _ (.fin _)) = _
    simp only [FNum.log]
    rw [if_pos hy]
    rfl

theorem mul_exp_neg_le {a : ℝ} (h : 0 ≤ a) : a * Real.exp (-a) ≤ 1 / 2 := by
  have h1 := Real.add_one_le_exp (a - 1)
  have h2 : a ≤ Real.exp (a - 1) := by linarith
  have h3 : a * Real.exp (-a) ≤ Real.exp (a - 1) * Real.exp (-a) := mul_le_mul_of_nonneg_right h2 (Real.exp_pos _).le
  rw [← Real.exp_add, show a - 1 + -a = -1 by ring] at h3
  refine h3.trans ?_
  rw [Real.exp_neg]
  have := Real.add_one_le_exp (1 : ℝ)
  rw [inv_le_comm₀ (Real.exp_pos _) (by norm_num)]
  linarith

/-- Exponentials of numbers that are near each other. -/
theorem exp_neg_near {a A κ ε : ℝ} (ha : 0 ≤ a) (hA : 0 ≤ A) (hκ : 0 ≤ κ) (hκ1 : κ ≤ 1 / 4) (hε : 0 ≤ ε) (hε1 : ε ≤ 1 / 4)
    (h : |a - A| ≤ κ * A + ε) : |Real.exp (-a) - Real.exp (-A)| ≤ κ + 2 * ε := by
  have key : ∀ x y : ℝ, x ≤ y → Real.exp (-x) - Real.exp (-y) ≤ Real.exp (-x) * (y - x) := by
    intro x y _
    have h1 := Real.add_one_le_exp (-(y - x))
    have e : Real.exp (-y) = Real.exp (-x) * Real.exp (-(y - x)) := by rw [← Real.exp_add]; congr 1; ring
    rw [e]
    nlinarith [Real.exp_pos (-x)]
  rcases le_total A a with hle | hle
  · rw [abs_of_nonneg (by linarith)] at h
    have h1 := key A a hle
    have h2 : Real.exp (-a) ≤ Real.exp (-A) := Real.exp_le_exp.2 (by linarith)
    have h3 := mul_exp_neg_le hA
    have h4 : Real.exp (-A) ≤ 1 := Real.exp_le_one_iff.2 (by linarith)
    rw [abs_of_nonpos (by linarith)]
    have h5 := mul_le_mul_of_nonneg_left h (Real.exp_pos (-A)).le
    nlinarith [mul_le_mul_of_nonneg_left h3 hκ, mul_le_mul_of_nonneg_right h4 hε]
  · rw [abs_of_nonpos (by linarith)] at h
    have h1 := key a A hle
    have h2 : Real.exp (-A) ≤ Real.exp (-a) := Real.exp_le_exp.2 (by linarith)
    have h3 := mul_exp_neg_le ha
    have h4 : Real.exp (-a) ≤ 1 := Real.exp_le_one_iff.2 (by linarith)
    rw [abs_of_nonneg (by linarith)]
    have hA' : A ≤ 4 / 3 * (a + ε) := by nlinarith
    have h6 : A - a ≤ κ * (4 / 3 * (a + ε)) + ε := by nlinarith [mul_le_mul_of_nonneg_left hA' hκ]
    have h5 := mul_le_mul_of_nonneg_left h6 (Real.exp_pos (-a)).le
    have e : Real.exp (-a) * (κ * (4 / 3 * (a + ε)) + ε) =
        κ * (4 / 3 * (a * Real.exp (-a))) + κ * (4 / 3 * ε) * Real.exp (-a) + ε * Real.exp (-a) := by ring
    rw [e] at h5
    have h7 := mul_le_mul_of_nonneg_left h3 (mul_nonneg hκ (by norm_num : (0 : ℝ) ≤ 4 / 3))
    have h8 : κ * (4 / 3 * ε) * Real.exp (-a) ≤ κ * (4 / 3 * ε) := mul_le_of_le_one_right (by positivity) h4
    have h9 : ε * Real.exp (-a) ≤ ε := mul_le_of_le_one_right hε h4
    nlinarith

/-- The belief in a claim with the log belief `x`, computed from `σ`. -/
theorem sig_near {γ σ x : ℝ} {k : Nat} (hγ0 : 0 ≤ γ) (hγ1 : γ ≤ 1) (hσ : 0 ≤ σ) (hσ1 : σ ≤ 2 ^ (60 : ℤ)) (hx : 0 ≤ x)
    (hn : Near k x σ) (hk : k ≤ 2 ^ 49) :
    ∃ b, tfSig (FP.fin γ : D) (FP.fin σ) = FP.fin b ∧ Rep (.binary64 ω) b ∧ 1 / 2 ≤ b ∧ b ≤ 1 ∧
      |b - 1 / (1 + Real.exp (-(γ * x)))| ≤ (k + 3) / 2 ^ 52 := by
  have hu := uu_pos
  have hu1 := uu_le
  have hee := ee_pos
  have hee1 : ee ≤ uu / 16 := by
    have e : ee ≤ 2 ^ (-57 : ℤ) := zpow_le_zpow_right₀ one_le_two (by norm_num)
    refine e.trans (le_of_eq ?_)
    unfold uu; norm_num
  have hs0 : 0 ≤ γ * σ := mul_nonneg hγ0 hσ
  have hsb : γ * σ ≤ big := by
    refine (mul_le_of_le_one_left hσ hγ1).trans (hσ1.trans ?_)
    exact zpow_le_zpow_right₀ one_le_two (by norm_num)
  have eabs : |-γ * σ| = γ * σ := by rw [neg_mul, abs_neg, abs_of_nonneg hs0]
  obtain ⟨y, hy, -, ey, -⟩ := round_err (ω := ω) (x := -γ * σ) (by rw [eabs]; exact hsb)
  rw [eabs] at ey
  have hy0 : y ≤ 0 := by
    have m := (Rounding.binary64 ω).mono (-γ * σ) 0 (by rw [neg_mul]; linarith)
    rw [hy, Rounding.zero] at m
    simp only [FNum.toEReal] at m
    exact_mod_cast m
  -- the exponential
  obtain ⟨e, he, -, e0, e1⟩ := faithful_between ((Rounding.binary64 ω).exp_faithful y) rep_zero rep_one
    (Real.exp_pos y).le (Real.exp_le_one_iff.2 hy0)
  have hv : (Rounding.binary64 ω).expv y = Real.exp y * (1 + ω.expErr y) := rfl
  have hδ := abs_le.1 (ω.expErr_le y)
  have h55 : (2⁻¹ : ℝ) ^ 55 = uu / 4 := by unfold uu; norm_num
  rw [h55] at hδ
  have hey1 : Real.exp y ≤ 1 := Real.exp_le_one_iff.2 hy0
  have hey0 := Real.exp_pos y
  obtain ⟨e', he', -, -, -, ee'⟩ := unit_round (ω := ω) (x := (Rounding.binary64 ω).expv y)
    (by rw [hv]; exact mul_nonneg hey0.le (by linarith [hδ.1])) (by rw [hv]; nlinarith [hδ.2])
  obtain rfl : e' = e := by rw [he] at he'; injection he' with h; exact h.symm
  have eexp : |e' - Real.exp y| ≤ uu + uu / 4 := by
    have h1 : |(Rounding.binary64 ω).expv y - Real.exp y| ≤ uu / 4 := by
      rw [hv, show Real.exp y * (1 + ω.expErr y) - Real.exp y = Real.exp y * ω.expErr y by ring, abs_mul, abs_of_pos hey0]
      refine (mul_le_of_le_one_left (abs_nonneg _) hey1).trans ?_
      rw [← h55]; exact ω.expErr_le y
    have h2 : |e' - (Rounding.binary64 ω).expv y| ≤ uu := ee'
    calc |e' - Real.exp y| ≤ |e' - (Rounding.binary64 ω).expv y| + |(Rounding.binary64 ω).expv y - Real.exp y| := abs_sub_le _ _ _
      _ ≤ _ := by linarith
  -- the denominator
  obtain ⟨s, hs, -, s1, s2⟩ := rnd_between (R := .binary64 ω) (x := 1 + e') rep_one (rep64_nat (n := 2) (by norm_num))
    (by linarith) (by push_cast; linarith)
  push_cast at s2
  obtain ⟨s', hs', -, -, -, es⟩ := unit_round (ω := ω) (x := 1 + e') (by linarith) (by linarith)
  obtain rfl : s' = s := by rw [hs] at hs'; injection hs' with h; exact h.symm
  have es' : |s' - (1 + e')| ≤ uu := es
  -- the quotient
  have spos : 0 < s' := by linarith
  have q1 : 1 / 2 ≤ 1 / s' := one_div_le_one_div_of_le spos s2
  have q2 : 1 / s' ≤ 1 := by rw [div_le_one spos]; exact s1
  have rhalf : Rep (.binary64 ω) (1 / 2) := by
    have := rep64_pow (ω := ω) (e := -1) (by norm_num) (by norm_num)
    norm_num at this ⊢
    exact this
  obtain ⟨b, hb, br, b1, b2⟩ := rnd_between (R := .binary64 ω) rhalf rep_one q1 q2
  obtain ⟨b', hb', -, -, -, eb⟩ := unit_round (ω := ω) (x := 1 / s') (by linarith) (by linarith)
  obtain rfl : b' = b := by rw [hb] at hb'; injection hb' with h; exact h.symm
  have eb' : |b' - 1 / s'| ≤ uu := eb
  refine ⟨b', ?_, br, b1, b2, ?_⟩
  · unfold tfSig
    have g1 : (Arith.neg (FP.fin γ) *. FP.fin σ : D) = FP.fin y := by
      show FNum.mul (.binary64 ω) (FNum.neg (.fin γ)) (.fin σ) = _
      exact hy
    have g2 : (Arith.exp (FP.fin y : D) : D) = FP.fin e' := he
    have g3 : (FP.fin 1 +. FP.fin e' : D) = FP.fin s' := by rw [FP.add_fin]; exact hs
    rw [g1, g2, FP.one_eq, g3, FP.div_fin _ spos.ne']
    exact hb
  · have hk' : (k : ℝ) * uu ≤ 1 / 16 := by
      have h1 : (k : ℝ) ≤ 2 ^ 49 := by exact_mod_cast hk
      refine (mul_le_mul_of_nonneg_right h1 hu.le).trans (le_of_eq ?_)
      unfold uu; norm_num
    have hk52 : k ≤ 2 ^ 52 := hk.trans (by norm_num)
    have hd := hn.abs_sub_le hx hk52
    have e52 : x * k / 2 ^ 52 = 2 * (k * uu) * x := by unfold uu; norm_num; ring
    rw [e52] at hd
    have hA0 : 0 ≤ γ * x := mul_nonneg hγ0 hx
    have hκ : |(-y) - γ * x| ≤ (2 * (k * uu) + 2 * uu) * (γ * x) + ee := by
      have t1 : |(-y) - γ * σ| ≤ uu * (γ * σ) + ee := by
        rw [← abs_neg]
        refine le_trans (le_of_eq ?_) ey
        congr 1; ring
      have t2 : |γ * σ - γ * x| ≤ γ * (2 * (k * uu) * x) := by
        rw [← mul_sub, abs_mul, abs_of_nonneg hγ0]
        exact mul_le_mul_of_nonneg_left hd hγ0
      have t3 : γ * σ ≤ 2 * (γ * x) := by
        have h2 := (abs_le.1 hd).2
        have h3 : σ ≤ 2 * x := by nlinarith
        nlinarith
      have t4 := mul_le_mul_of_nonneg_left t3 hu.le
      calc |(-y) - γ * x| ≤ |(-y) - γ * σ| + |γ * σ - γ * x| := abs_sub_le _ _ _
        _ ≤ uu * (2 * (γ * x)) + ee + γ * (2 * (k * uu) * x) := by linarith
        _ = _ := by ring
    have hexp := exp_neg_near (a := -y) (A := γ * x) (by linarith) hA0 (by positivity) (by linarith) hee.le (by linarith) hκ
    rw [neg_neg] at hexp
    set E := Real.exp (-(γ * x)) with hE
    have hEpos : 0 < E := Real.exp_pos _
    have h3 : |s' - (1 + E)| ≤ uu + (uu + uu / 4) + (2 * (k * uu) + 2 * uu + 2 * ee) := by
      have := abs_sub_le s' (1 + e') (1 + E)
      have h5 : |(1 + e') - (1 + E)| ≤ |e' - Real.exp y| + |Real.exp y - E| := by
        rw [add_sub_add_left_eq_sub]; exact abs_sub_le _ _ _
      linarith
    have h4 : |1 / s' - 1 / (1 + E)| ≤ |s' - (1 + E)| := by
      have p1 : 0 < 1 + E := by linarith
      rw [div_sub_div _ _ spos.ne' p1.ne', abs_div, abs_of_pos (mul_pos spos p1), one_mul, mul_one, abs_sub_comm]
      refine div_le_self (abs_nonneg _) ?_
      nlinarith
    have h5 := abs_sub_le b' (1 / s') (1 / (1 + E))
    have e6 : ((k : ℝ) + 3) / 2 ^ 52 = 2 * (k * uu) + 6 * uu := by unfold uu; norm_num; ring
    rw [e6]
    linarith

section
variable {S V X : Type} [DecidableEq S] [DecidableEq V] [DecidableEq X] (l : List (S × V × X))

theorem filter_sources_finset (c : V × X) : ((sources l).filter fun s => (s, c) ∈ recorded l).toFinset = sourcesOf l c := by
  ext s
  simp only [List.mem_toFinset, List.mem_filter, decide_eq_true_eq]
  exact ⟨fun h => (mem_sourcesOf l).2 h.2, fun h => ⟨mem_sources_of_sourcesOf l h, (mem_sourcesOf l).1 h⟩⟩

theorem filter_claims_finset (s : S) : ((claims l).filter fun c => (s, c) ∈ recorded l).toFinset = claimsOf l s := by
  ext c
  simp only [List.mem_toFinset, List.mem_filter, decide_eq_true_eq]
  exact ⟨fun h => (mem_claimsOf l).2 h.2, fun h => ⟨mem_claims_of_claimsOf l h, (mem_claimsOf l).1 h⟩⟩

/-- The log belief of a claim. -/
theorem log_near {c : V × X} (hS : (sourcesOf l c).card ≤ 2 ^ 46) {T : S → D} {t : S → ℝ}
    (hT : ∀ s ∈ sourcesOf l c, T s = FP.fin (t s) ∧ IsDouble (t s) ∧ 1 / 4 ≤ t s ∧ t s < 1) :
    ∃ σ, tfLog l (fun s => tfTau (T s)) c = FP.fin σ ∧ 0 ≤ σ ∧ σ ≤ 2 ^ (60 : ℤ) ∧
      Near (18 + (sourcesOf l c).card) (∑ s ∈ sourcesOf l c, -Real.log (1 - t s)) σ := by
  classical
  set L := (sources l).filter fun s => (s, c) ∈ recorded l with hL
  have hmem : ∀ s ∈ L, s ∈ sourcesOf l c := fun s hs => by
    rw [← filter_sources_finset l c, List.mem_toFinset]; exact hs
  have hlen : L.length = (sourcesOf l c).card := sources_filter l c
  obtain ⟨G, hG⟩ := choose_on (as := L) (P := fun s y => tfTau (T s) = FP.fin y ∧ Rep (.binary64 ω) y ∧ Away 2 y ∧ y ≤ 64 ∧ 0 < y ∧
      Near 18 (-Real.log (1 - t s)) y) (fun s hs => by
    obtain ⟨h1, h2, h3, h4⟩ := hT s (hmem s hs)
    rw [h1]
    exact tau_near h2 h3 h4)
  obtain ⟨σ, h1, -, h3, h4, h5, -⟩ := near_foldl (ω := ω) (p := 2) (k := 18) (M := 64) (by norm_num)
    (F := fun s => -Real.log (1 - t s)) (G := G) L (by rw [hlen]; omega)
    (fun s hs => ⟨(hG s hs).2.2.1, by exact_mod_cast (hG s hs).2.2.2.1⟩) (fun s hs => (hG s hs).2.2.2.2.2)
    (fun s hs => by
      obtain ⟨-, -, g3, g4⟩ := hT s (hmem s hs)
      have := Real.log_le_sub_one_of_pos (by linarith : 0 < 1 - t s)
      linarith)
  refine ⟨σ, ?_, h3.nonneg, ?_, ?_⟩
  · unfold tfLog
    rw [rowDot_list, List.foldl_map]
    refine Eq.trans ?_ h1
    refine List.foldl_ext _ _ _ fun a s hs => ?_
    obtain ⟨g1, g2, -⟩ := hG s hs
    rw [g1, FP.mul_fin, one_mul]
    congr 1
  · refine h4.trans ?_
    have : L.length * 64 ≤ 2 ^ 60 := by rw [hlen]; omega
    have h' : ((L.length * 64 : Nat) : ℝ) ≤ ((2 ^ 60 : Nat) : ℝ) := by exact_mod_cast this
    refine h'.trans (le_of_eq ?_)
    norm_num
  · rw [hlen, ← List.sum_toFinset _ ((nodup_sources l).filter _), filter_sources_finset] at h5
    exact h5

/-- The new trust of a source. -/
theorem trust_near {s : S} (hs : (claimsOf l s).Nonempty) (hC : (claimsOf l s).card ≤ 2 ^ 46) {B : V × X → D} {b : V × X → ℝ}
    (hB : ∀ c ∈ claimsOf l s, B c = FP.fin (b c) ∧ 1 / 2 ≤ b c ∧ b c ≤ 1) :
    ∃ t, tfTrust l B s = FP.fin t ∧ IsDouble t ∧ 1 / 4 ≤ t ∧
      |t - (∑ c ∈ claimsOf l s, b c) / (claimsOf l s).card| ≤ ((claimsOf l s).card + 2) / 2 ^ 52 := by
  classical
  have hn1 : 1 ≤ (claimsOf l s).card := hs.card_pos
  set L := (claims l).filter fun c => (s, c) ∈ recorded l with hL
  have hmem : ∀ c ∈ L, c ∈ claimsOf l s := fun c hc => by
    rw [← filter_claims_finset l s, List.mem_toFinset]; exact hc
  have hlen : L.length = (claimsOf l s).card := claims_filter l s
  set n := (claimsOf l s).card with hn
  have hn1' : (1 : ℝ) ≤ n := by exact_mod_cast hn1
  have hn46 : (n : ℝ) ≤ 2 ^ 46 := by exact_mod_cast hC
  have npos : (0 : ℝ) < n := by linarith
  have hq : (2 : ℝ) ^ (-((46 : Nat) : ℤ)) ≤ 1 / n := by
    rw [le_div_iff₀ npos]
    calc (2 : ℝ) ^ (-((46 : Nat) : ℤ)) * n ≤ 2 ^ (-((46 : Nat) : ℤ)) * 2 ^ 46 := mul_le_mul_of_nonneg_left hn46 (two_zpow_pos _).le
      _ = 1 := by norm_num
  have hq1 : 1 / (n : ℝ) ≤ 1 := by rw [div_le_one npos]; exact hn1'
  have hone : (1 : ℝ) ≤ big := by have := le_big (k := 0) (by norm_num); simpa using this
  obtain ⟨w, hw, wr, wn, ww, wb⟩ := near_rnd (ω := ω) (p := 46) (by norm_num) (.inr hq) rep_one hq1 hone
  have wpos : 0 < w := lt_of_lt_of_le (mul_pos (by positivity) (pow_sub_pos 1)) wn.1
  have hw46 : (2 : ℝ) ^ (-((46 : Nat) : ℤ)) ≤ w := by
    rcases ww with h | h
    · exact absurd h wpos.ne'
    · exact h
  have hwt : tfWeight (R := .binary64 ω) l s = FP.fin w := by
    unfold tfWeight
    rw [claimCount_fp l (by rw [← hn]; omega), ← hn, FP.one_eq, FP.div_fin _ npos.ne']
    exact hw
  have e1 : (FP.fin 1 *. FP.fin w : D) = FP.fin w := by rw [FP.mul_fin, one_mul]; exact wr
  obtain ⟨G, hG⟩ := choose_on (as := L) (P := fun c y => (FP.fin w *. B c : D) = FP.fin y ∧ Away 47 y ∧ y ≤ 1 ∧
      Near 2 (1 / n * b c) y) (fun c hc => by
    obtain ⟨h1, h2, h3⟩ := hB c (hmem c hc)
    have hlow : (2 : ℝ) ^ (-((47 : Nat) : ℤ)) ≤ w * b c := by
      have e : (2 : ℝ) ^ (-((47 : Nat) : ℤ)) = 2 ^ (-((46 : Nat) : ℤ)) * (1 / 2) := by norm_num
      rw [e]
      exact mul_le_mul hw46 h2 (by norm_num) wpos.le
    have hup : w * b c ≤ 1 := by nlinarith
    obtain ⟨y, hy, -, yn, yw, yb⟩ := near_rnd (ω := ω) (p := 47) (by norm_num) (.inr hlow) rep_one hup hone
    refine ⟨y, by rw [h1, FP.mul_fin]; exact hy, yw, yb, ?_⟩
    have := wn.mul (Near.refl (b c)) (by positivity) (by linarith)
    exact this.trans yn)
  obtain ⟨t, h1, h2, h3, h4, h5, -⟩ := near_foldl (ω := ω) (p := 47) (k := 2) (M := 1) (by norm_num)
    (F := fun c => 1 / n * b c) (G := G) L (by rw [hlen]; omega)
    (fun c hc => ⟨(hG c hc).2.1, by exact_mod_cast (hG c hc).2.2.1⟩) (fun c hc => (hG c hc).2.2.2)
    (fun c hc => mul_nonneg (by positivity) (by linarith [(hB c (hmem c hc)).2.1]))
  rw [hlen, ← List.sum_toFinset _ ((nodup_claims l).filter _), filter_claims_finset, ← Finset.mul_sum] at h5
  have hmean : 1 / n * ∑ c ∈ claimsOf l s, b c = (∑ c ∈ claimsOf l s, b c) / n := by ring
  rw [hmean] at h5
  set m := (∑ c ∈ claimsOf l s, b c) / n with hm
  have m0 : 1 / 2 ≤ m := by
    rw [hm, le_div_iff₀ npos, hn, mul_comm, ← nsmul_eq_mul]
    exact Finset.card_nsmul_le_sum _ _ _ fun c hc => (hB c hc).2.1
  have m1 : m ≤ 1 := by
    rw [hm, div_le_one npos, hn, ← mul_one ((claimsOf l s).card : ℝ), ← nsmul_eq_mul]
    exact Finset.sum_le_card_nsmul _ _ _ fun c hc => (hB c hc).2.2
  have hd := h5.abs_sub_le (by linarith) (by omega)
  have hbound : m * ((2 + n : Nat) : ℝ) / 2 ^ 52 ≤ (n + 2) / 2 ^ 52 := by
    push_cast
    rw [div_le_div_iff_of_pos_right (by norm_num)]
    nlinarith
  refine ⟨t, ?_, ?_, ?_, hd.trans hbound⟩
  · unfold tfTrust
    rw [hwt, e1, rowDot_list, List.foldl_map]
    refine Eq.trans ?_ h1
    refine List.foldl_ext _ _ _ fun a c hc => ?_
    rw [(hG c hc).1]
  · exact ((C31_nearest _).1 _ h2).1
  · have := (abs_le.1 (hd.trans hbound)).1
    have h9 : ((n : ℝ) + 2) / 2 ^ 52 ≤ 1 / 4 := by
      rw [div_le_iff₀ (by norm_num)]
      linarith
    linarith

end
end TD
