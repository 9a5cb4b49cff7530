import Verif.Props.Double
import Verif.Props.Rounded
/-! Errors of single operations of binary64. -/

namespace TD
open Spec Double

theorem nearest_half (x : ℝ) : |(nearest x : ℝ) - x| ≤ 1 / 2 := by
  have h1 := Int.floor_le x
  have h2 := Int.lt_floor_add_one x
  unfold nearest
  rw [abs_le]
  split_ifs <;> push_cast <;> constructor <;> linarith

theorem round_half {x : ℝ} : |roundNonneg x - x| ≤ 2 ^ lastPlace x / 2 := by
  have hp := two_zpow_pos (lastPlace x)
  have e : roundNonneg x - x = ((nearest (x / 2 ^ lastPlace x) : ℝ) - x / 2 ^ lastPlace x) * 2 ^ lastPlace x := by
    unfold roundNonneg
    rw [sub_mul, div_mul_cancel₀ _ hp.ne']
  rw [e, abs_mul, abs_of_pos hp]
  have := nearest_half (x / 2 ^ lastPlace x)
  nlinarith

theorem log_le {x : ℝ} (hx : 0 < x) {E : ℤ} (h : x < 2 ^ (E + 1)) : Int.log 2 x ≤ E := by
  have h1 := (log_bounds hx).1
  have := (zpow_lt_zpow_iff_right₀ (by norm_num : (1 : ℝ) < 2)).1 (h1.trans_lt h)
  omega

theorem le_log {x : ℝ} (hx : 0 < x) {E : ℤ} (h : 2 ^ E ≤ x) : E ≤ Int.log 2 x := by
  have h1 := (log_bounds hx).2
  have := (zpow_lt_zpow_iff_right₀ (by norm_num : (1 : ℝ) < 2)).1 (h.trans_lt h1)
  omega

/-- Integers are doubles. -/
theorem rep64_nat {n : Nat} (h : n ≤ 2 ^ 53) : Rep (.binary64 ω) n := C31_binary64.nat n h

/-- Numbers between 0 and 2 are rounded with an error of at most `2 ^ -53`. -/
theorem unit_round {x : ℝ} (h0 : 0 ≤ x) (h2 : x ≤ 2) :
    ∃ y, (Rounding.binary64 ω).rnd x = .fin y ∧ Rep (.binary64 ω) y ∧ 0 ≤ y ∧ y ≤ 2 ∧ |y - x| ≤ 2 ^ (-53 : ℤ) := by
  have r2 : Rep (.binary64 ω) 2 := by exact_mod_cast rep64_nat (n := 2) (by norm_num)
  obtain ⟨y, hy, hr, y0, y2⟩ := rnd_between (R := .binary64 ω) rep_zero r2 h0 h2
  refine ⟨y, hy, hr, y0, y2, ?_⟩
  have hp : (0 : ℝ) < 2 ^ (-53 : ℤ) := two_zpow_pos _
  rcases h2.lt_or_eq with hlt | rfl
  · rcases h0.lt_or_eq with hpos | rfl
    · have e : y = roundNonneg x := by
        have : Double.rnd x = .fin y := hy
        rw [rnd_nonneg h0] at this
        split_ifs at this
        exact (FNum.fin.inj this).symm
      rw [e]
      refine round_half.trans ?_
      have hl : lastPlace x ≤ -52 := by
        have := log_le hpos (E := 0) (by simpa using hlt)
        unfold lastPlace
        omega
      have h3 : (2 : ℝ) ^ lastPlace x ≤ 2 ^ (-52 : ℤ) := zpow_le_zpow_right₀ (by norm_num) hl
      have h4 : (2 : ℝ) ^ (-52 : ℤ) = 2 * 2 ^ (-53 : ℤ) := by norm_num
      rw [h4] at h3
      generalize (2 : ℝ) ^ lastPlace x = u at *
      generalize (2 : ℝ) ^ (-53 : ℤ) = v at *
      linarith
    · rw [Rounding.zero] at hy
      cases hy
      simpa using hp.le
  · rw [show (Rounding.binary64 ω).rnd 2 = .fin 2 from r2] at hy
    cases hy
    simpa using hp.le

/-- Magnitude and rounding commute. -/
theorem abs_rnd {R : Rounding} (x : ℝ) : FNum.abs (R.rnd x) = R.rnd |x| := by
  have pos : ∀ x, 0 ≤ x → FNum.abs (R.rnd x) = R.rnd x := by
    intro x hx
    have m := R.mono 0 x hx
    rw [R.zero] at m
    cases h : R.rnd x with
    | nan => rfl
    | pinf => rfl
    | ninf => rw [h] at m; simp [FNum.toEReal] at m
    | fin y =>
      rw [h] at m
      have : 0 ≤ y := by simpa [FNum.toEReal] using m
      simp [FNum.abs, abs_of_nonneg this]
  rcases le_total 0 x with h | h
  · rw [abs_of_nonneg h, pos x h]
  · have h1 := pos (-x) (by linarith)
    rw [abs_of_nonpos h, ← h1, R.odd]
    cases h' : R.rnd x <;> simp [FNum.abs, FNum.neg]

/-- Sums of few small numbers. -/
theorem sum_round (p : List ℝ) (hp : ∀ x ∈ p, 0 ≤ x) (a : ℝ) (ha : 0 ≤ a)
    (h : a + p.sum + p.length * 2 ^ (-53 : ℤ) ≤ 2) :
    ∃ L, (p.map FNum.fin).foldl (FNum.add (.binary64 ω)) (.fin a) = .fin L ∧
      |L - (a + p.sum)| ≤ p.length * 2 ^ (-53 : ℤ) := by
  have hp0 : (0 : ℝ) < 2 ^ (-53 : ℤ) := two_zpow_pos _
  generalize hε : (2 : ℝ) ^ (-53 : ℤ) = ε at *
  induction p generalizing a with
  | nil => exact ⟨a, rfl, by simp⟩
  | cons x p ih =>
    have hx := hp x (by simp)
    have hs : 0 ≤ p.sum := List.sum_nonneg fun y hy => hp y (by simp [hy])
    simp only [List.sum_cons, List.length_cons, Nat.cast_add, Nat.cast_one] at h
    have hl : (0 : ℝ) ≤ p.length * ε := by positivity
    obtain ⟨b, hb, -, hb0, -, he⟩ := unit_round (ω := ω) (x := a + x) (by linarith) (by nlinarith)
    rw [hε, abs_le] at he
    obtain ⟨L, hL, hLe⟩ := ih (fun y hy => hp y (by simp [hy])) b hb0 (by nlinarith)
    refine ⟨L, ?_, ?_⟩
    · simp only [List.map_cons, List.foldl_cons, FNum.add, hb]
      exact hL
    · rw [abs_le] at hLe ⊢
      simp only [List.sum_cons, List.length_cons, Nat.cast_add, Nat.cast_one]
      constructor <;> nlinarith

end TD
