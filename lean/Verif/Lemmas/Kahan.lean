import Verif.Lemmas.RoundError
import Verif.Lemmas.Synthetic
/-! Error of Kahan's compensated summation in binary64. -/

namespace TD
open Spec Double

theorem uu_small : uu ≤ 1 / 1000000000 := by
  calc uu ≤ 2 ^ (-30 : ℤ) := zpow_le_zpow_right₀ one_le_two (by norm_num)
    _ ≤ 1 / 1000000000 := by norm_num

theorem ee_le_sq : ee ≤ uu * uu := by
  rw [ee, uu, ← zpow_add₀ two_ne_zero]
  exact zpow_le_zpow_right₀ one_le_two (by norm_num)

theorem four_le_big : (4 : ℝ) ≤ big := by
  have := le_big (k := 2) (by norm_num)
  norm_num at this
  exact this

/-- One rounding of a number of moderate size. -/
theorem round_small {x : ℝ} (h : |x| ≤ 4) : ∃ y, (Rounding.binary64 ω).rnd x = .fin y ∧ |y - x| ≤ uu * |x| + ee := by
  obtain ⟨y, h1, -, h2, -⟩ := round_err (ω := ω) (h.trans four_le_big)
  exact ⟨y, h1, h2⟩

/-- One step of the compensated sum. -/
theorem kahan_step {s c x : ℝ} (hs : |s| ≤ 3 / 2) (hc : |c| ≤ 6 * uu) (h0 : 0 ≤ x) (h1 : x ≤ 5 / 4) :
    ∃ s' c', kahanStep ((FP.fin s, FP.fin c) : FP (.binary64 ω) × FP (.binary64 ω)) (FP.fin x) =
        (FP.fin s', FP.fin c') ∧
      |c'| ≤ 6 * uu ∧ |(s' - c') - (s - c + x)| ≤ 2 * uu * x + 30 * (uu * uu) := by
  have hu := uu_pos
  have hus := uu_small
  have he := ee_pos
  have hee := ee_le_sq
  have hxc : |x - c| ≤ x + 6 * uu := by
    have := abs_le.1 hc
    rw [abs_le]; constructor <;> linarith
  obtain ⟨y, hy, ey⟩ := round_small (ω := ω) (x := x - c) (hxc.trans (by linarith))
  have ey' : |y - (x - c)| ≤ uu * (x + 6 * uu) + uu * uu := ey.trans (by nlinarith)
  have hyx : |y| ≤ x + 8 * uu := by
    have h1 := abs_le.1 ey'
    have h2 := abs_le.1 hxc
    rw [abs_le]; constructor <;> nlinarith
  have hsy : |s + y| ≤ 3 := (abs_add_le _ _).trans (by linarith)
  obtain ⟨t, ht, et⟩ := round_small (ω := ω) (x := s + y) (hsy.trans (by norm_num))
  have et' : |t - (s + y)| ≤ 3 * uu + uu * uu := et.trans (by nlinarith)
  have hts : |t - s| ≤ x + 12 * uu := by
    have h1 := abs_le.1 et'
    have h2 := abs_le.1 hyx
    rw [abs_le]; constructor <;> nlinarith
  obtain ⟨a, ha, ea⟩ := round_small (ω := ω) (x := t - s) (hts.trans (by linarith))
  have ea' : |a - (t - s)| ≤ uu * (x + 12 * uu) + uu * uu := ea.trans (by nlinarith)
  have hay : |a - y| ≤ 5 * uu := by
    have h1 := abs_le.1 et'
    have h2 := abs_le.1 ea'
    rw [abs_le]; constructor <;> nlinarith
  obtain ⟨c', hc', ec⟩ := round_small (ω := ω) (x := a - y) (hay.trans (by linarith))
  have ec' : |c' - (a - y)| ≤ 5 * (uu * uu) + uu * uu := ec.trans (by nlinarith)
  refine ⟨t, c', ?_, ?_, ?_⟩
  · unfold kahanStep
    dsimp only
    have e1 : (FP.fin x -. FP.fin c : FP (.binary64 ω)) = FP.fin y := by
      rw [sub_eq_add_neg] at hy; exact hy
    have e2 : (FP.fin s +. FP.fin y : FP (.binary64 ω)) = FP.fin t := ht
    have e3 : (FP.fin t -. FP.fin s : FP (.binary64 ω)) = FP.fin a := by
      rw [sub_eq_add_neg] at ha; exact ha
    have e4 : (FP.fin a -. FP.fin y : FP (.binary64 ω)) = FP.fin c' := by
      rw [sub_eq_add_neg] at hc'; exact hc'
    rw [e1, e2, e3, e4]
  · have h1 := abs_le.1 hay
    have h2 := abs_le.1 ec'
    rw [abs_le]; constructor <;> nlinarith
  · have h1 := abs_le.1 ey'
    have h2 := abs_le.1 ea'
    have h3 := abs_le.1 ec'
    rw [abs_le]; constructor <;> nlinarith

/-- All steps. -/
theorem kahan_steps (p : List ℝ) (hp : ∀ x ∈ p, 0 ≤ x) (s c T E : ℝ) (hc : |c| ≤ 6 * uu) (hE : |s - c - T| ≤ E)
    (hT : 0 ≤ T) (hsum : T + p.sum ≤ 5 / 4) (herr : E + 2 * uu * p.sum + p.length * (30 * (uu * uu)) ≤ 1 / 8) :
    ∃ s' c', (p.map FP.fin).foldl kahanStep ((FP.fin s, FP.fin c) : FP (.binary64 ω) × FP (.binary64 ω)) =
        (FP.fin s', FP.fin c') ∧
      |s' - (T + p.sum)| ≤ E + 2 * uu * p.sum + p.length * (30 * (uu * uu)) + 6 * uu := by
  have hu := uu_pos
  have hus := uu_small
  induction p generalizing s c T E with
  | nil =>
    refine ⟨s, c, rfl, ?_⟩
    have h1 := abs_le.1 hE
    have h2 := abs_le.1 hc
    simp only [List.sum_nil, List.length_nil, Nat.cast_zero]
    rw [abs_le]; constructor <;> linarith
  | cons x p ih =>
    have hx := hp x (by simp)
    have hs0 : 0 ≤ p.sum := List.sum_nonneg fun y hy => hp y (by simp [hy])
    simp only [List.sum_cons, List.length_cons, Nat.cast_add, Nat.cast_one] at hsum herr ⊢
    have hl : (0 : ℝ) ≤ p.length * (30 * (uu * uu)) := by positivity
    have hux : 0 ≤ 2 * uu * x := by positivity
    have hup : 0 ≤ 2 * uu * p.sum := by positivity
    have huu : 0 ≤ uu * uu := by positivity
    have hs : |s| ≤ 3 / 2 := by
      have h1 := abs_le.1 hE
      have h2 := abs_le.1 hc
      rw [abs_le]; constructor <;> nlinarith
    obtain ⟨s', c', h1, h2, h3⟩ := kahan_step (ω := ω) hs hc hx (by linarith)
    obtain ⟨s'', c'', h4, h5⟩ := ih (fun y hy => hp y (by simp [hy])) s' c' (T + x)
      (E + (2 * uu * x + 30 * (uu * uu))) h2 (by
        have a1 := abs_le.1 hE
        have a2 := abs_le.1 h3
        rw [abs_le]; constructor <;> linarith) (by linarith) (by linarith) (by nlinarith)
    refine ⟨s'', c'', ?_, ?_⟩
    · rw [List.map_cons, List.foldl_cons, h1, h4]
    · rw [← add_assoc]
      refine h5.trans (le_of_eq ?_)
      ring

/-- The compensated sum of at most `2 ^ 50` nonnegative numbers that add up to about 1 is nearly exact. -/
theorem kahan_err (p : List ℝ) (hp : ∀ x ∈ p, 0 ≤ x) (hn : p.length ≤ 2 ^ 50) (hsum : p.sum ≤ 5 / 4) :
    ∃ K, kahanSum (p.map FP.fin : List (FP (.binary64 ω))) = FP.fin K ∧ |K - p.sum| ≤ 20 * uu := by
  have hu := uu_pos
  have hus := uu_small
  cases p with
  | nil =>
    refine ⟨0, ?_, by simp; exact hu.le⟩
    simp only [List.map_nil, kahanSum]; exact FP.zero_eq
  | cons x p =>
    have hx := hp x (by simp)
    have hs0 : 0 ≤ p.sum := List.sum_nonneg fun y hy => hp y (by simp [hy])
    simp only [List.sum_cons, List.length_cons] at hsum hn ⊢
    have hl := n_uu (n := p.length) (by omega)
    have hl' : (p.length : ℝ) * (30 * (uu * uu)) ≤ 4 * uu := by nlinarith
    obtain ⟨s, c, h1, h2⟩ := kahan_steps (ω := ω) p (fun y hy => hp y (by simp [hy])) x 0 x 0 (by simp; exact hu.le)
      (by simp) hx hsum (by nlinarith)
    refine ⟨s, ?_, h2.trans (by nlinarith)⟩
    simp only [List.map_cons, kahanSum]
    rw [FP.zero_eq]
    rw [h1]

/-- A compensated sum near 1 passes the check. -/
theorem kahan_tol {K : ℝ} (h : |K - 1| ≤ 25 * uu) :
    Arith.lt (Arith.lit 1 67108864 : FP (.binary64 ω)) (Arith.abs (FP.fin K -. Arith.ofNat 1)) = false := by
  have hK1 : |K - 1| ≤ 1 / 67108864 := by
    have h4 : uu ≤ 1 / 1000000000000 := by
      calc uu ≤ 2 ^ (-40 : ℤ) := zpow_le_zpow_right₀ one_le_two (by norm_num)
        _ ≤ 1 / 1000000000000 := by norm_num
    linarith
  rw [FP.one_eq]
  show FNum.lt ((Rounding.binary64 ω).rnd _) (FNum.abs ((Rounding.binary64 ω).rnd (K + -1))) = false
  rw [abs_rnd, ← sub_eq_add_neg]
  have hm := (Rounding.binary64 ω).mono _ _ hK1
  have e : (((1 : ℤ) : ℝ) / ((67108864 : ℕ) : ℝ)) = 1 / 67108864 := by norm_num
  rw [e]
  have n1 := (Rounding.binary64 ω).notNan |K - 1|
  have n2 := (Rounding.binary64 ω).notNan (1 / 67108864)
  generalize (Rounding.binary64 ω).rnd |K - 1| = a at *
  generalize (Rounding.binary64 ω).rnd (1 / 67108864) = b at *
  cases a <;> cases b <;> first
    | exact absurd rfl n1
    | exact absurd rfl n2
    | (simp only [FNum.lt, decide_eq_false_iff_not, not_lt]; exact hm)

theorem takeWhile_length {A : Type} (P : A → Bool) (l : List A) (v : Nat) (hv : v < l.length) :
    (l.takeWhile P).length = v ↔ (∀ i (h : i < v), P (l[i]'(h.trans hv)) = true) ∧ P l[v] = false := by
  induction l generalizing v with
  | nil => simp at hv
  | cons a l ih =>
    rw [List.takeWhile_cons]
    cases v with
    | zero =>
      cases h : P a <;> simp [h]
    | succ v =>
      have hv' : v < l.length := by simpa using hv
      cases h : P a with
      | false =>
        simp only [Bool.false_eq_true, if_false, List.length_nil]
        refine ⟨fun e => by omega, fun e => ?_⟩
        have := e.1 0 (by omega)
        simp [h] at this
      | true =>
        simp only [if_true, List.length_cons, Nat.add_right_cancel_iff, ih v hv', List.getElem_cons_succ]
        refine and_congr ⟨fun e i hi => ?_, fun e i hi => ?_⟩ Iff.rfl
        · cases i with
          | zero => exact h
          | succ i => exact e i (by omega)
        · exact e (i + 1) (by omega)

theorem cumsum_eq {α : Type} [Arith α] (acc : α) (p : List α) :
    cumsum acc p = (List.range p.length).map fun i => (p.take (i + 1)).foldl Arith.add acc := by
  induction p generalizing acc with
  | nil => rfl
  | cons x p ih =>
    rw [cumsum, ih, List.length_cons, List.range_succ_eq_map]
    simp [Function.comp_def]

/-- The boundaries between the values drawn: cumulative sums divided by the last. -/
theorem choice_intervals (p : List ℝ) (hp : ∀ x ∈ p, 0 ≤ x) (hn : p.length ≤ 2 ^ 50)
    (hsum : |p.sum - 1| ≤ 3 * uu) :
    ∃ b : Nat → ℝ, b 0 = 0 ∧ b p.length = 1 ∧ (∀ i j, i ≤ j → j ≤ p.length → b i ≤ b j) ∧
      (∀ i ≤ p.length, |b i - (p.take i).sum| ≤ (4 * p.length + 8) * uu) ∧
      ∀ (g : Rng (FP (.binary64 ω))) (k : Nat) (u : ℝ), g.unit k = FP.fin u → 0 ≤ u → ∀ v < p.length,
        (g.choice (p.map FP.fin) k = .ok (v, k + 1) ↔ b v ≤ u ∧ u < b (v + 1)) := by
  have hu := uu_pos
  have hus := uu_small
  have hnu := n_uu hn
  have h3 := abs_le.1 hsum
  have hmem : ∀ i, ∀ x ∈ p.take i, 0 ≤ x := fun i x hx => hp x (List.mem_of_mem_take hx)
  have hle : ∀ i, (p.take i).sum ≤ p.sum := by
    intro i
    have : p.sum = (p.take i).sum + (p.drop i).sum := by rw [← List.sum_append, List.take_append_drop]
    have := List.sum_nonneg fun x (hx : x ∈ p.drop i) => hp x (List.mem_of_mem_drop hx)
    linarith
  have hlen : ∀ i, ((p.take i).length : ℝ) ≤ p.length := fun i => by
    exact_mod_cast (List.length_take_le' i p)
  have hS : ∀ i, ∃ L, ((p.take i).map FNum.fin).foldl (FNum.add (.binary64 ω)) (.fin 0) = .fin L ∧
      |L - (p.take i).sum| ≤ p.length * uu := by
    intro i
    have h1 : ((p.take i).length : ℝ) * uu ≤ p.length * uu := mul_le_mul_of_nonneg_right (hlen i) hu.le
    obtain ⟨L, hL, hLe⟩ := sum_round (ω := ω) (p.take i) (hmem i) 0 le_rfl (by
      rw [zero_add]
      change _ + ((p.take i).length : ℝ) * uu ≤ 2
      have := hle i
      linarith)
    rw [zero_add] at hLe
    exact ⟨L, hL, hLe.trans h1⟩
  choose S hS hSe using hS
  have hS0 : S 0 = 0 := (FNum.fin.inj (hS 0)).symm
  have hrep : ∀ i, 0 ≤ S i ∧ Rep (.binary64 ω) (S i) := fun i => foldl_fin _ (hmem i) 0 _ rep_zero (hS i)
  have hmono : ∀ i j, i ≤ j → S i ≤ S j := by
    intro i j hij
    have e : p.take j = p.take i ++ (p.take j).drop i := by
      conv_lhs => rw [← List.take_append_drop i (p.take j)]
      rw [List.take_take, min_eq_left hij]
    have := hS j
    rw [e, List.map_append, List.foldl_append, hS i] at this
    exact (foldl_fin _ (fun x hx => hmem j x (List.mem_of_mem_drop hx)) _ _ (hrep i).2 this).1
  set n := p.length with hndef
  set L := S n with hLdef
  have hLs : |L - p.sum| ≤ n * uu := by
    have := hSe n
    rwa [List.take_of_length_le (le_of_eq rfl)] at this
  have hL1 : |L - 1| ≤ (n + 3) * uu := by
    have := abs_le.1 hLs
    rw [abs_le]; constructor <;> nlinarith
  have hLpos : 0 < L := by
    have := (abs_le.1 hL1).1
    nlinarith
  have hfold : (p.map FNum.fin).foldl (FNum.add (.binary64 ω)) (.fin 0) = .fin L := by
    have := hS n
    rwa [List.take_of_length_le (le_of_eq rfl)] at this
  -- the quotients
  have hq : ∀ i, i ≤ n → ∃ q, (Rounding.binary64 ω).rnd (S i / L) = .fin q ∧ |q - S i / L| ≤ 2 * uu := by
    intro i hi
    have h0 : 0 ≤ S i / L := div_nonneg (hrep i).1 hLpos.le
    have h1 : S i / L ≤ 1 := (div_le_one hLpos).2 (hmono i n hi)
    obtain ⟨q, hq, he⟩ := round_small (ω := ω) (x := S i / L) (by rw [abs_of_nonneg h0]; linarith)
    refine ⟨q, hq, he.trans ?_⟩
    rw [abs_of_nonneg h0]
    nlinarith [ee_le_sq, ee_pos]
  let b : Nat → ℝ := fun i => if h : i ≤ n then (hq i h).choose else 1
  have hb : ∀ i, i ≤ n → (Rounding.binary64 ω).rnd (S i / L) = .fin (b i) ∧ |b i - S i / L| ≤ 2 * uu := by
    intro i hi
    have : b i = (hq i hi).choose := dif_pos hi
    rw [this]
    exact (hq i hi).choose_spec
  have bmono : ∀ i j, i ≤ j → j ≤ n → b i ≤ b j := by
    intro i j hij hj
    have := (Rounding.binary64 ω).mono _ _ (div_le_div_of_nonneg_right (hmono i j hij) hLpos.le)
    rw [(hb i (hij.trans hj)).1, (hb j hj).1] at this
    simpa [FNum.toEReal] using this
  refine ⟨b, ?_, ?_, bmono, ?_, ?_⟩
  · have := (hb 0 (Nat.zero_le _)).1
    rw [hS0, zero_div, Rounding.zero] at this
    exact (FNum.fin.inj this).symm
  · have := (hb n le_rfl).1
    rw [← hLdef, div_self hLpos.ne', Rounding.one] at this
    exact (FNum.fin.inj this).symm
  · intro i hi
    have e1 := abs_le.1 (hb i hi).2
    have e2 := abs_le.1 (hSe i)
    have e3 := abs_le.1 hL1
    have e4 : |S i / L - S i| ≤ (n + 3) * uu := by
      have : S i / L - S i = (S i / L) * (1 - L) := by field_simp
      rw [this, abs_mul, abs_of_nonneg (div_nonneg (hrep i).1 hLpos.le), abs_sub_comm]
      have h1 : S i / L ≤ 1 := (div_le_one hLpos).2 (hmono i n hi)
      calc S i / L * |L - 1| ≤ 1 * |L - 1| := mul_le_mul_of_nonneg_right h1 (abs_nonneg _)
        _ ≤ _ := by rw [one_mul]; exact hL1
    have e5 := abs_le.1 e4
    have : (0 : ℝ) ≤ n * uu := by positivity
    rw [abs_le]; constructor <;> nlinarith
  · intro g k u hgu h0 v hv
    obtain ⟨K, hK, hKe⟩ := kahan_err (ω := ω) p hp hn (by linarith)
    have htol := kahan_tol (ω := ω) (K := K) (by
      have := abs_le.1 hKe
      rw [abs_le]; constructor <;> nlinarith)
    rw [choice_eq g p hp K L hK htol hLpos hfold k, hgu]
    simp only [Except.ok.injEq, Prod.mk.injEq, and_true]
    have hc : (cumsum (FP.fin 0 : FP (.binary64 ω)) (p.map FP.fin)).map (· /. FP.fin L) =
        (List.range n).map fun i => FP.fin (b (i + 1)) := by
      rw [cumsum_eq, List.map_map, List.length_map]
      apply List.map_congr_left
      intro i hi
      have hi' : i + 1 ≤ n := List.mem_range.1 hi
      have e : (((p.map FP.fin : List (FP (.binary64 ω))).take (i + 1)).foldl Arith.add (FP.fin 0)) = FP.fin (S (i + 1)) := by
        rw [← List.map_take]
        exact hS (i + 1)
      simp only [Function.comp_apply, e]
      exact (FP.div_fin _ hLpos.ne').trans (hb _ hi').1
    rw [hc]
    unfold searchRight
    rw [takeWhile_length _ _ v (by simpa using hv)]
    simp only [List.getElem_map, List.getElem_range, FP.le_fin, decide_eq_true_eq, decide_eq_false_iff_not, not_le]
    refine and_congr ⟨fun e => ?_, fun e i hi => ?_⟩ Iff.rfl
    · cases v with
      | zero =>
        have := (hb 0 (Nat.zero_le _)).1
        rw [hS0, zero_div, Rounding.zero] at this
        rw [(FNum.fin.inj this).symm]
        exact h0
      | succ v => exact e v (by omega)
    · exact (bmono _ _ (by omega) hv.le).trans e

end TD
