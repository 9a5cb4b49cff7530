import Verif.Lemmas.Binary64
import Verif.Props.Range
import Mathlib.Analysis.Complex.ExponentialBounds
/-! Nine times the double nearest to 1/9, added up. -/

namespace TD
open Spec Double

theorem nearest_eq {x : ℝ} {m : ℤ} (h : |x - m| < 1 / 2) : nearest x = m := by
  rw [abs_lt] at h
  have h1 := Int.floor_le x
  have h2 := Int.lt_floor_add_one x
  have l1 : m - 1 ≤ ⌊x⌋ := by
    rw [Int.le_floor]; push_cast; linarith
  have l2 : ⌊x⌋ < m + 1 := by
    rw [Int.floor_lt]; push_cast; linarith
  have e : ⌊x⌋ = m - 1 ∨ ⌊x⌋ = m := by omega
  unfold nearest
  rcases e with e | e <;> rw [e] at h1 h2 ⊢ <;> push_cast at * <;> split_ifs <;> first | omega | (exfalso; linarith)

theorem nearest_eq_even {x : ℝ} {m : ℤ} (h : |x - m| ≤ 1 / 2) (he : Even m) : nearest x = m := by
  rcases h.lt_or_eq with h | h
  · exact nearest_eq h
  · rcases abs_choice (x - m) with e | e <;> rw [e] at h
    · have ex : x = m + 1 / 2 := by linarith
      have hf : ⌊x⌋ = m := by
        rw [Int.floor_eq_iff]; constructor <;> linarith
      unfold nearest
      rw [hf, if_neg (by rw [ex]; norm_num), if_neg (by rw [ex]; norm_num), if_pos he]
    · have ex : x = m - 1 / 2 := by linarith
      have hf : ⌊x⌋ = m - 1 := by
        rw [Int.floor_eq_iff]; push_cast; constructor <;> linarith
      have ho : ¬ Even (m - 1) := by
        rw [Int.not_even_iff_odd]; exact he.sub_odd odd_one
      unfold nearest
      rw [hf, if_neg (by rw [ex]; push_cast; norm_num), if_neg (by rw [ex]; push_cast; norm_num), if_neg ho]
      omega

/-- Rounding of a number whose exponent is known. -/
theorem rnd_at {x : ℝ} {e m : ℤ} (he : -1074 ≤ e) (h9 : e ≤ 900) (lo : 2 ^ (e + 52) ≤ x) (hi : x < 2 ^ (e + 53))
    (h : |x / 2 ^ e - m| < 1 / 2 ∨ (|x / 2 ^ e - m| ≤ 1 / 2 ∧ Even m)) :
    (Rounding.binary64 ω).rnd x = .fin (m * 2 ^ e) := by
  have hx : 0 < x := (two_zpow_pos _).trans_le lo
  have hl : lastPlace x = e := by
    have h1 := le_log hx lo
    have h2 := log_le hx (E := e + 52) (by rwa [add_assoc])
    unfold lastPlace
    omega
  have hr : roundNonneg x = m * 2 ^ e := by
    unfold roundNonneg
    rw [hl]
    rcases h with h | ⟨h, h'⟩
    · rw [nearest_eq h]
    · rw [nearest_eq_even h h']
  show Double.rnd x = _
  rw [rnd_nonneg hx.le, hr, if_neg]
  have hb := (round_half (x := x))
  rw [hr, hl, abs_le] at hb
  have e1 : (2 : ℝ) ^ (e + 53) ≤ 2 ^ (953 : ℤ) := zpow_le_zpow_right₀ (by norm_num) (by omega)
  have e2 : (2 : ℝ) ^ e ≤ 2 ^ (953 : ℤ) := zpow_le_zpow_right₀ (by norm_num) (by omega)
  have e3 : (2 : ℝ) ^ (955 : ℤ) ≤ 2 ^ 1024 := by
    rw [← zpow_natCast]; exact zpow_le_zpow_right₀ (by norm_num) (by norm_num)
  have e4 : (2 : ℝ) ^ (955 : ℤ) = 4 * 2 ^ (953 : ℤ) := by
    rw [show (955 : ℤ) = 2 + 953 by norm_num, zpow_add₀ (by norm_num)]; norm_num
  have e5 : (0 : ℝ) < 2 ^ (953 : ℤ) := two_zpow_pos _
  rw [e4] at e3
  generalize (2 : ℝ) ^ (953 : ℤ) = A at *
  generalize (2 : ℝ) ^ 1024 = B at *
  generalize (2 : ℝ) ^ (e + 53) = C at *
  generalize (2 : ℝ) ^ e = D at *
  intro hc
  clear e4 h hr hl
  have := hb.2
  linarith

/-- The same in units of `2 ^ -56`. -/
theorem rnd_units {n m : ℤ} (j : Nat) (hj : j ≤ 8) (lo : 2 ^ 52 * 2 ^ j ≤ n) (hi : n < 2 ^ 53 * 2 ^ j)
    (h : |2 * n - 2 * (m * 2 ^ j)| < 2 ^ j ∨ (|2 * n - 2 * (m * 2 ^ j)| ≤ 2 ^ j ∧ Even m)) :
    (Rounding.binary64 ω).rnd (n * 2 ^ (-56 : ℤ)) = .fin ((m * 2 ^ j : ℤ) * 2 ^ (-56 : ℤ)) := by
  have p := two_zpow_pos (-56)
  have ej : ∀ k : ℤ, (2 : ℝ) ^ ((j : ℤ) - 56 + k) = 2 ^ k * 2 ^ j * 2 ^ (-56 : ℤ) := by
    intro k
    rw [← zpow_natCast, ← zpow_add₀ (by norm_num), ← zpow_add₀ (by norm_num)]
    congr 1; ring
  have hq : (n * 2 ^ (-56 : ℤ) : ℝ) / 2 ^ ((j : ℤ) - 56) = n / 2 ^ j := by
    have := ej 0
    rw [add_zero] at this
    rw [this, zpow_zero, one_mul, mul_div_mul_right _ _ p.ne']
  have hd : |(n : ℝ) / 2 ^ j - m| = ((|2 * n - 2 * (m * 2 ^ j)| : ℤ) : ℝ) / (2 * 2 ^ j) := by
    have h2 : (0 : ℝ) < 2 * 2 ^ j := by positivity
    push_cast
    rw [eq_div_iff h2.ne', ← abs_of_pos h2, ← abs_mul]
    congr 1
    field_simp
  have key : ∀ z : ℤ, (z < 2 ^ j → (z : ℝ) / (2 * 2 ^ j) < 1 / 2) ∧ (z ≤ 2 ^ j → (z : ℝ) / (2 * 2 ^ j) ≤ 1 / 2) := by
    intro z
    have h2 : (0 : ℝ) < 2 * 2 ^ j := by positivity
    constructor
    · intro h
      rw [div_lt_iff₀ h2]
      have : (z : ℝ) < 2 ^ j := by exact_mod_cast h
      linarith
    · intro h
      rw [div_le_iff₀ h2]
      have : (z : ℝ) ≤ 2 ^ j := by exact_mod_cast h
      linarith
  have := rnd_at (ω := ω) (x := n * 2 ^ (-56 : ℤ)) (e := (j : ℤ) - 56) (m := m) (by omega) (by omega)
    (by rw [ej]
        refine mul_le_mul_of_nonneg_right ?_ p.le
        exact_mod_cast lo)
    (by rw [ej]
        refine mul_lt_mul_of_pos_right ?_ p
        exact_mod_cast hi)
    (by rw [hq, hd]
        rcases h with h | ⟨h, h'⟩
        · exact .inl ((key _).1 h)
        · exact .inr ⟨(key _).2 h, h'⟩)
  rw [this]
  have e0 := ej 0
  rw [add_zero, zpow_zero, one_mul] at e0
  rw [e0]
  congr 1
  push_cast
  ring

/-- The double nearest to 1/9. -/
noncomputable def ninth : ℝ := (8006399337547548 : ℤ) * 2 ^ (-56 : ℤ)

theorem rnd_ninth : (Rounding.binary64 ω).rnd (1 / 9) = .fin ninth := by
  have h1 : |(1 / 9 : ℝ) / 2 ^ (-56 : ℤ) - (8006399337547548 : ℤ)| < 1 / 2 := by
    norm_num [abs_lt]
  exact rnd_at (x := 1 / 9) (e := -56) (by norm_num) (by norm_num) (by norm_num) (by norm_num) (.inl h1)

theorem ninth_pos : 0 < ninth := by unfold ninth; have := two_zpow_pos (-56); positivity

theorem rep_ninth : Rep (.binary64 ω) ninth := (Rounding.binary64 ω).idem _ _ rnd_ninth

theorem add_units {a n : ℤ} {m : ℤ} (j : Nat) (hj : j ≤ 8) (hn : a + 8006399337547548 = n)
    (lo : 2 ^ 52 * 2 ^ j ≤ n) (hi : n < 2 ^ 53 * 2 ^ j)
    (h : |2 * n - 2 * (m * 2 ^ j)| < 2 ^ j ∨ (|2 * n - 2 * (m * 2 ^ j)| ≤ 2 ^ j ∧ Even m)) :
    FNum.add (.binary64 ω) (.fin (a * 2 ^ (-56 : ℤ))) (.fin ninth) = .fin ((m * 2 ^ j : ℤ) * 2 ^ (-56 : ℤ)) := by
  rw [← rnd_units (ω := ω) j hj lo hi h, ← hn]
  show (Rounding.binary64 ω).rnd _ = _
  congr 1
  unfold ninth
  push_cast
  ring

/-- Nine additions of the double nearest to 1/9. -/
theorem nine_ninths : (fun a => FNum.add (.binary64 ω) a (.fin ninth))^[9] (.fin 0) = .fin (1 + 2 ^ (-52 : ℤ)) := by
  have s1 : FNum.add (.binary64 ω) (.fin 0) (.fin ninth) = .fin ((8006399337547548 : ℤ) * 2 ^ (-56 : ℤ)) := by
    show (Rounding.binary64 ω).rnd _ = _
    rw [zero_add]; exact rep_ninth
  norm_num only at s1
  have s2 := add_units (ω := ω) (a := 8006399337547548) (n := 16012798675095096) (m := 8006399337547548) 1 (by norm_num) (by norm_num) (by norm_num)
    (by norm_num) (.inl (by norm_num))
  norm_num only at s2
  have s3 := add_units (ω := ω) (a := 16012798675095096) (n := 24019198012642644) (m := 6004799503160661) 2 (by norm_num) (by norm_num) (by norm_num)
    (by norm_num) (.inl (by norm_num))
  norm_num only at s3
  have s4 := add_units (ω := ω) (a := 24019198012642644) (n := 32025597350190192) (m := 8006399337547548) 2 (by norm_num) (by norm_num) (by norm_num)
    (by norm_num) (.inl (by norm_num))
  norm_num only at s4
  have s5 := add_units (ω := ω) (a := 32025597350190192) (n := 40031996687737740) (m := 5003999585967218) 3 (by norm_num) (by norm_num) (by norm_num)
    (by norm_num) (.inr ⟨by norm_num, by decide⟩)
  norm_num only at s5
  have s6 := add_units (ω := ω) (a := 40031996687737744) (n := 48038396025285292) (m := 6004799503160662) 3 (by norm_num) (by norm_num) (by norm_num)
    (by norm_num) (.inr ⟨by norm_num, by decide⟩)
  norm_num only at s6
  have s7 := add_units (ω := ω) (a := 48038396025285296) (n := 56044795362832844) (m := 7005599420354106) 3 (by norm_num) (by norm_num) (by norm_num)
    (by norm_num) (.inr ⟨by norm_num, by decide⟩)
  norm_num only at s7
  have s8 := add_units (ω := ω) (a := 56044795362832848) (n := 64051194700380396) (m := 8006399337547550) 3 (by norm_num) (by norm_num) (by norm_num)
    (by norm_num) (.inr ⟨by norm_num, by decide⟩)
  norm_num only at s8
  have s9 := add_units (ω := ω) (a := 64051194700380400) (n := 72057594037927948) (m := 4503599627370497) 4 (by norm_num) (by norm_num) (by norm_num)
    (by norm_num) (.inl (by norm_num))
  norm_num only at s9
  simp only [Function.iterate_succ, Function.iterate_zero, Function.comp_apply, id_eq, s1]
  rw [s2]
  rw [s3, s4, s5, s6, s7, s8, s9]
  congr 1
  norm_num

end TD
