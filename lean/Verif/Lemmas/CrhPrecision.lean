import Verif.Lemmas.CrhDouble
import Verif.Lemmas.InvestPrecision
import Verif.Lemmas.Algos2
/-! The rounding errors of one iteration of CRH. -/

namespace TD
open Spec Double
attribute [-instance] instBEqProd

variable {ω : Platform}

theorem sum_sub_nonneg {A : Type} {L as : List A} {F : A → ℝ} (hF : ∀ a ∈ as, 0 ≤ F a) (h : ∀ a ∈ L, a ∈ as) :
    0 ≤ (L.map F).sum := by
  refine List.sum_nonneg ?_
  intro x hx
  obtain ⟨b, hb, rfl⟩ := List.mem_map.1 hx
  exact hF b (h b hb)

/-- One addition inside a sum. -/
theorem near_node {p k i j M K : Nat} (hp : p ≤ 1022) (hi : 1 ≤ i) (hj : 1 ≤ j) (hij : i + j ≤ K) (hM : K * M ≤ 2 ^ 53) {a b A B : ℝ}
    (aw : Away p a) (bw : Away p b) (ab : a ≤ (i * M : Nat)) (bb : b ≤ (j * M : Nat))
    (an : Near (k + i) A a) (bn : Near (k + j) B b) (hA : 0 ≤ A) (hB : 0 ≤ B) :
    ∃ y, (Rounding.binary64 ω).rnd (a + b) = .fin y ∧ Rep (.binary64 ω) y ∧ Away p y ∧ y ≤ ((i + j) * M : Nat) ∧
      Near (k + (i + j)) (A + B) y := by
  have hbd : (i + j) * M ≤ 2 ^ 53 := le_trans (Nat.mul_le_mul_right _ hij) hM
  have hle : a + b ≤ ((i + j) * M : Nat) := by push_cast at ab bb ⊢; linarith
  obtain ⟨y, hy, yr, yn, yw, yb⟩ := near_rnd (ω := ω) hp (aw.add bw) (rep_nat_bound hbd).1 hle (rep_nat_bound (ω := ω) hbd).2
  refine ⟨y, hy, yr, yw, yb, ?_⟩
  have e : k + (i + j) = (k + (i + j - 1)) + 1 := by omega
  rw [e]
  exact ((an.mono (by omega) hA aw.nonneg).add (bn.mono (by omega) hB bw.nonneg)).trans yn

/-- Numbers added in any order. -/
theorem near_sum {A : Type} {p k M : Nat} (hp : p ≤ 1022) {F G : A → ℝ} (as : List A) (hne : as ≠ [])
    (hM : as.length * M ≤ 2 ^ 53) (hG : ∀ a ∈ as, Rep (.binary64 ω) (G a) ∧ Away p (G a) ∧ G a ≤ M)
    (hn : ∀ a ∈ as, Near k (F a) (G a)) (hF : ∀ a ∈ as, 0 ≤ F a) :
    ∃ y, (Arith.sum (as.map fun a => FP.fin (G a)) : FP (.binary64 ω)) = FP.fin y ∧ Rep (.binary64 ω) y ∧ Away p y ∧
      y ≤ (as.length * M : Nat) ∧ Near (k + as.length) (as.map F).sum y := by
  obtain ⟨L, hL, -, y, h1, h2, h3, h4, h5⟩ := sum_order_fp (R := .binary64 ω) as (fun a => FP.fin (G a))
    (fun L x => 1 ≤ L.length ∧ ∃ y, x = FP.fin y ∧ Rep (.binary64 ω) y ∧ Away p y ∧ y ≤ (L.length * M : Nat) ∧
      Near (k + L.length) (L.map F).sum y)
    (fun h => absurd h hne)
    (fun a ha => by
      obtain ⟨r, w, b⟩ := hG a ha
      refine ⟨le_rfl, G a, ?_, r, w, by simpa using b, ?_⟩
      · rw [FP.add_fin, zero_add]; exact r
      · simpa using (hn a ha).mono (Nat.le_add_right k 1) (hF a ha) w.nonneg)
    (fun L₁ L₂ x y hs hx hy => by
      obtain ⟨l1, a, rfl, ra, wa, ba, na⟩ := hx
      obtain ⟨l2, b, rfl, rb, wb, bb, nb⟩ := hy
      have hm1 : ∀ c ∈ L₁, c ∈ as := fun c hc => hs.subset (by simp [hc])
      have hm2 : ∀ c ∈ L₂, c ∈ as := fun c hc => hs.subset (by simp [hc])
      have hlen : L₁.length + L₂.length ≤ as.length := by simpa using hs.length_le
      obtain ⟨y, h1, h2, h3, h4, h5⟩ := near_node (ω := ω) hp l1 l2 hlen hM wa wb ba bb na nb
        (sum_sub_nonneg hF hm1) (sum_sub_nonneg hF hm2)
      refine ⟨by simp; omega, y, ?_, h2, h3, ?_, ?_⟩
      · rw [FP.add_fin]; exact h1
      · rwa [List.length_append]
      · rwa [List.length_append, List.map_append, List.sum_append])
  refine ⟨y, h1, h2, h3, ?_, ?_⟩
  · rwa [hL.length_eq] at h4
  · rwa [hL.length_eq, (hL.map F).sum_eq] at h5

/-- Numbers multiplied by ones and added in any order. -/
theorem near_dot_ones {A : Type} {p k M : Nat} (hp : p ≤ 1022) {F G : A → ℝ} (as : List A) (hne : as ≠ [])
    (hM : as.length * M ≤ 2 ^ 53) (hG : ∀ a ∈ as, Rep (.binary64 ω) (G a) ∧ Away p (G a) ∧ G a ≤ M)
    (hn : ∀ a ∈ as, Near k (F a) (G a)) (hF : ∀ a ∈ as, 0 ≤ F a) :
    ∃ y, (Arith.dot (as.map fun a => FP.fin (G a)) (ones as.length) : FP (.binary64 ω)) = FP.fin y ∧ Rep (.binary64 ω) y ∧
      Away p y ∧ y ≤ (as.length * M : Nat) ∧ Near (k + as.length) (as.map F).sum y := by
  have e : (ones as.length : Vec (FP (.binary64 ω))) = as.map fun _ => FP.fin 1 := by
    rw [ones, FP.one_eq]; simp
  obtain ⟨L, hL, -, y, h1, h2, h3, h4, h5⟩ := dot_order_fp (R := .binary64 ω) as (fun a => FP.fin (G a)) (fun _ => FP.fin 1)
    (fun L x => 1 ≤ L.length ∧ ∃ y, x = FP.fin y ∧ Rep (.binary64 ω) y ∧ Away p y ∧ y ≤ (L.length * M : Nat) ∧
      Near (k + L.length) (L.map F).sum y)
    (fun h => absurd h hne)
    (fun a ha => by
      obtain ⟨r, w, b⟩ := hG a ha
      refine ⟨le_rfl, G a, ?_, r, w, by simpa using b, ?_⟩
      · rw [FP.mul_fin, mul_one]; exact r
      · simpa using (hn a ha).mono (Nat.le_add_right k 1) (hF a ha) w.nonneg)
    (fun a L y hs hy => by
      have ha : a ∈ as := hs.subset (by simp)
      obtain ⟨r, w, b⟩ := hG a ha
      obtain ⟨l2, z, rfl, rb, wb, bb, nb⟩ := hy
      have hm2 : ∀ c ∈ L, c ∈ as := fun c hc => hs.subset (by simp [hc])
      have hlen : 1 + L.length ≤ as.length := by have := hs.length_le; simp at this; omega
      obtain ⟨y, h1, h2, h3, h4, h5⟩ := near_node (ω := ω) (k := k) hp le_rfl l2 hlen hM w wb (by simpa using b) bb
        ((hn a ha).mono (Nat.le_add_right k 1) (hF a ha) w.nonneg) nb (hF a ha) (sum_sub_nonneg hF hm2)
      refine ⟨by simp, y, ?_, h2, h3, ?_, ?_⟩
      · show FNum.fma (.binary64 ω) (FNum.fin (G a)) (FNum.fin 1) (FNum.fin z) = _
        have e : FNum.fma (.binary64 ω) (FNum.fin (G a)) (FNum.fin 1) (FNum.fin z) = (Rounding.binary64 ω).rnd (G a * 1 + z) := rfl
        rw [e, mul_one]; exact h1
      · rwa [List.length_cons, add_comm L.length]
      · rwa [List.length_cons, List.map_cons, List.sum_cons, add_comm L.length])
    (fun L₁ L₂ x y hs hx hy => by
      obtain ⟨l1, a, rfl, ra, wa, ba, na⟩ := hx
      obtain ⟨l2, b, rfl, rb, wb, bb, nb⟩ := hy
      have hm1 : ∀ c ∈ L₁, c ∈ as := fun c hc => hs.subset (by simp [hc])
      have hm2 : ∀ c ∈ L₂, c ∈ as := fun c hc => hs.subset (by simp [hc])
      have hlen : L₁.length + L₂.length ≤ as.length := by simpa using hs.length_le
      obtain ⟨y, h1, h2, h3, h4, h5⟩ := near_node (ω := ω) hp l1 l2 hlen hM wa wb ba bb na nb
        (sum_sub_nonneg hF hm1) (sum_sub_nonneg hF hm2)
      refine ⟨by simp; omega, y, ?_, h2, h3, ?_, ?_⟩
      · rw [FP.add_fin]; exact h1
      · rwa [List.length_append]
      · rwa [List.length_append, List.map_append, List.sum_append])
  refine ⟨y, ?_, h2, h3, ?_, ?_⟩
  · rw [e]; exact h1
  · rwa [hL.length_eq] at h4
  · rwa [hL.length_eq, (hL.map F).sum_eq] at h5

/-- Doubles up to 2 other than 1 are not very close to 1. -/
theorem double_sub_one {x : ℝ} (h : IsDouble x) (h0 : 0 ≤ x) : x = 1 ∨ (2 : ℝ) ^ (-53 : ℤ) ≤ |x - 1| := by
  obtain ⟨m, e, rfl, hm, -, -⟩ := h
  rcases le_or_gt (-53) e with he | he
  · obtain ⟨n, hn⟩ : ∃ n : ℕ, e = n - 53 := ⟨(e + 53).toNat, by omega⟩
    have h1 : (m : ℝ) * 2 ^ e - 1 = ((m * 2 ^ n - 2 ^ 53 : ℤ) : ℝ) * 2 ^ (-53 : ℤ) := by
      rw [hn, sub_eq_add_neg (n : ℤ), zpow_add₀ two_ne_zero, zpow_natCast]
      push_cast
      rw [sub_mul]
      norm_num [mul_assoc]
    by_cases hz : m * 2 ^ n - 2 ^ 53 = 0
    · left
      rw [hz] at h1
      simp at h1
      linarith
    · right
      rw [h1, abs_mul, abs_of_pos (two_zpow_pos _)]
      have : (1 : ℝ) ≤ |((m * 2 ^ n - 2 ^ 53 : ℤ) : ℝ)| := by
        rw [← Int.cast_abs]
        exact_mod_cast Int.one_le_abs hz
      exact le_mul_of_one_le_left (two_zpow_pos _).le this
  · right
    have hm' : |(m : ℝ)| < 2 ^ (53 : ℤ) := by
      rw [← Int.cast_abs]
      have : ((|m| : ℤ) : ℝ) < ((2 ^ 53 : ℤ) : ℝ) := by exact_mod_cast hm
      refine this.trans_eq (by norm_num)
    have h2 : (m : ℝ) * 2 ^ e ≤ 1 / 2 := by
      have e1 : (2 : ℝ) ^ e ≤ 2 ^ (-54 : ℤ) := zpow_le_zpow_right₀ one_le_two (by omega)
      calc (m : ℝ) * 2 ^ e ≤ |(m : ℝ)| * 2 ^ e := mul_le_mul_of_nonneg_right (le_abs_self _) (two_zpow_pos _).le
        _ ≤ 2 ^ (53 : ℤ) * 2 ^ (-54 : ℤ) := mul_le_mul hm'.le e1 (two_zpow_pos _).le (two_zpow_pos _).le
        _ = 1 / 2 := by rw [← zpow_add₀ two_ne_zero]; norm_num
    rw [abs_of_nonpos (by linarith)]
    have h3 : (2 : ℝ) ^ (-53 : ℤ) ≤ 1 / 2 := by norm_num
    generalize (2 : ℝ) ^ (-53 : ℤ) = q at *
    generalize (m : ℝ) * 2 ^ e = w at *
    linarith

/-- The square of a difference. -/
theorem near_square {x δ : ℝ} (hx : IsDouble x) (hδ : IsDouble δ) (h4 : |x - δ| ≤ 2) (hw : x - δ = 0 ∨ (2 : ℝ) ^ (-120 : ℤ) ≤ |x - δ|) :
    ∃ y, ((FP.fin x -. FP.fin δ) *. (FP.fin x -. FP.fin δ) : FP (.binary64 ω)) = FP.fin y ∧ Rep (.binary64 ω) y ∧
      Away 242 y ∧ y ≤ 4 ∧ Near 3 ((x - δ) ^ 2) y := by
  have hb2 : (2 : ℝ) ≤ big := by have := le_big (k := 1) (by norm_num); simpa using this
  obtain ⟨z, hz, dz, ez⟩ := add_err (ω := ω) hx hδ.neg (by rw [← sub_eq_add_neg]; exact h4.trans hb2)
  rw [← sub_eq_add_neg] at hz ez
  obtain ⟨z', hz', -, z1, z2⟩ := rnd_between (R := .binary64 ω) (rep_neg (rep64_nat (n := 2) (by norm_num)))
    (rep64_nat (n := 2) (by norm_num)) (by push_cast; exact (abs_le.1 h4).1) (by push_cast; exact (abs_le.1 h4).2 : x - δ ≤ ((2 : Nat) : ℝ))
  obtain rfl : z' = z := by rw [hz] at hz'; injection hz' with h; exact h.symm
  push_cast at z1 z2
  have hu := uu_pos
  have hu1 := uu_lt_one
  have hule := uu_le
  -- the difference
  have n1 : Near 1 |x - δ| |z'| := by
    have t1 := abs_sub_abs_le_abs_sub z' (x - δ)
    have t2 := abs_sub_abs_le_abs_sub (x - δ) z'
    rw [abs_sub_comm (x - δ) z'] at t2
    have a0 := abs_nonneg (x - δ)
    constructor
    · rw [pow_one]; linarith
    · rw [pow_one]
      have h1 : |z'| * (1 - uu) ≤ (|x - δ| + uu * |x - δ|) * (1 - uu) :=
        mul_le_mul_of_nonneg_right (by linarith) one_sub_pos.le
      have h2 : (|x - δ| + uu * |x - δ|) * (1 - uu) = |x - δ| - |x - δ| * uu ^ 2 := by ring
      have h3 : 0 ≤ |x - δ| * uu ^ 2 := by positivity
      linarith
  have n2 : Near 2 ((x - δ) ^ 2) (z' * z') := by
    have := n1.mul n1 (abs_nonneg _) (abs_nonneg _)
    rw [abs_mul_abs_self, abs_mul_abs_self, ← sq] at this
    exact this
  have aw : Away 242 (z' * z') := by
    rcases hw with h0 | h0
    · left
      rw [h0] at n2
      exact n2.eq_zero (mul_self_nonneg _) (by norm_num)
    · right
      have h1 : (2 : ℝ) ^ (-121 : ℤ) ≤ |z'| := by
        have := n1.1
        rw [pow_one] at this
        have e : (2 : ℝ) ^ (-121 : ℤ) = 2 ^ (-120 : ℤ) * (1 / 2) := by
          rw [show (-121 : ℤ) = -120 + (-1) by norm_num, zpow_add₀ two_ne_zero]; norm_num
        rw [e]
        refine le_trans ?_ this
        exact mul_le_mul h0 (by linarith) (by norm_num) (abs_nonneg _)
      rw [← abs_mul_abs_self z']
      calc (2 : ℝ) ^ (-((242 : Nat) : ℤ)) = 2 ^ (-121 : ℤ) * 2 ^ (-121 : ℤ) := by
            rw [← zpow_add₀ two_ne_zero]; norm_num
        _ ≤ |z'| * |z'| := mul_le_mul h1 h1 (two_zpow_pos _).le (abs_nonneg _)
  have h4' : z' * z' ≤ ((4 : Nat) : ℝ) := by push_cast; nlinarith
  obtain ⟨y, hy, yr, yn, yw, yb⟩ := near_rnd (ω := ω) (by norm_num) aw (rep_nat_bound (n := 4) (by norm_num)).1 h4'
    (rep_nat_bound (ω := ω) (n := 4) (by norm_num)).2
  refine ⟨y, ?_, yr, yw, by simpa using yb, n2.trans yn⟩
  have e : (FP.fin x -. FP.fin δ : FP (.binary64 ω)) = FP.fin z' := by
    have e' : (FP.fin x -. FP.fin δ : FP (.binary64 ω)) = (Rounding.binary64 ω).rnd (x - δ) := by
      show FNum.add (.binary64 ω) (FNum.fin x) (FNum.neg (FNum.fin δ)) = _
      simp [FNum.neg, FNum.add, sub_eq_add_neg]
    rw [e']; exact hz
  rw [e, FP.mul_fin]
  exact hy

section
variable {S V X : Type} [DecidableEq S] [DecidableEq V] [DecidableEq X] (l : List (S × V × X))

/-- Beliefs from which an iteration can be computed accurately. -/
def CrhGood (B : V × X → ℝ) : Prop := ∀ c ∈ claims l, IsDouble (B c) ∧ (2 : ℝ) ^ (-120 : ℤ) ≤ B c ∧ B c ≤ 2

theorem isDouble_one : IsDouble 1 := ⟨1, 0, by simp, by norm_num, by norm_num, by norm_num⟩

theorem crhZ_near (f : Option (V → X → X → Option (FP (.binary64 ω)))) {B : V × X → ℝ} (hB : CrhGood l B) :
    ∃ Z : V × X → V × X → ℝ, (∀ c ∈ claims l, ∀ d ∈ claims l, Rep (.binary64 ω) (Z c d) ∧ Away 242 (Z c d) ∧ Z c d ≤ 4 ∧
        Near 3 (if c.1 = d.1 then (B d - if c = d then 1 else 0) ^ 2 else 0) (Z c d)) ∧
      ∀ k c, (claims l)[k]? = some c → crhZ (matsOf l f) ((claims l).map fun c => FP.fin (B c)) k =
        (claims l).map fun d => FP.fin (Z c d) := by
  have hZ : ∀ c d, ∃ y : ℝ, d ∈ claims l →
      ((FP.fin (if c.1 = d.1 then 1 else 0) *. ((FP.fin (B d) -. FP.fin (if c = d then 1 else 0)) *.
        (FP.fin (B d) -. FP.fin (if c = d then 1 else 0))) : FP (.binary64 ω)) = FP.fin y) ∧
      Rep (.binary64 ω) y ∧ Away 242 y ∧ y ≤ 4 ∧ Near 3 (if c.1 = d.1 then (B d - if c = d then 1 else 0) ^ 2 else 0) y := by
    intro c d
    by_cases hd : d ∈ claims l
    swap
    · exact ⟨0, fun h => absurd h hd⟩
    obtain ⟨hdb, hb0, hb2⟩ := hB d hd
    have hp := two_zpow_pos (-120)
    have hsq : ∃ y, ((FP.fin (B d) -. FP.fin (if c = d then 1 else 0)) *. (FP.fin (B d) -. FP.fin (if c = d then 1 else 0)) :
        FP (.binary64 ω)) = FP.fin y ∧ Rep (.binary64 ω) y ∧
        Away 242 y ∧ y ≤ 4 ∧ Near 3 ((B d - if c = d then 1 else 0) ^ 2) y := by
      by_cases h : c = d
      · simp only [h, ↓reduceIte]
        refine near_square (ω := ω) hdb isDouble_one (abs_le.2 ⟨by linarith, by linarith⟩) ?_
        rcases double_sub_one hdb (hp.le.trans hb0) with h1 | h1
        · left; rw [h1]; ring
        · right
          refine le_trans (zpow_le_zpow_right₀ one_le_two ?_) h1
          norm_num
      · simp only [h, ↓reduceIte]
        refine near_square (ω := ω) hdb isDouble_zero (abs_le.2 ⟨by linarith, by linarith⟩) (.inr ?_)
        rw [sub_zero, abs_of_pos (by linarith)]; exact hb0
    obtain ⟨y, h1, h2, h3, h4, h5⟩ := hsq
    by_cases hv : c.1 = d.1
    · refine ⟨y, fun _ => ⟨?_, h2, h3, h4, by simpa only [hv, ↓reduceIte] using h5⟩⟩
      rw [h1, if_pos hv, FP.mul_fin, one_mul]; exact h2
    · refine ⟨0, fun _ => ⟨?_, rep_zero, .inl rfl, by norm_num, by simp [Near, hv]⟩⟩
      rw [h1, if_neg hv, FP.mul_fin, zero_mul]; exact rep_zero
  choose Z hZ using hZ
  refine ⟨Z, fun c _ d hd => (hZ c d hd).2, fun k c hk => ?_⟩
  unfold crhZ
  have h1 : (matsOf l f).numClaims = (claims l).length := rfl
  rw [h1]
  apply List.ext_getElem?
  intro j
  rcases Nat.lt_or_ge j (claims l).length with hj | hj
  · simp only [List.getElem?_map, List.getElem?_range hj, List.getElem?_eq_getElem hj, Option.map_some,
      Option.some.injEq]
    have hj' : (claims l)[j]? = some (claims l)[j] := List.getElem?_eq_getElem hj
    have hmem : (claims l)[j] ∈ claims l := List.getElem_mem hj
    generalize hd : (claims l)[j] = d at *
    have hat : Vec.at ((claims l).map fun c => (FP.fin (B c) : FP (.binary64 ω))) j = FP.fin (B d) :=
      Vec.at_map (F := fun c => (FP.fin (B c) : FP (.binary64 ω))) (p := (j, d)) (mem_enum.2 hj')
    have hget : (matsOf l f).mutEx.get k j = FP.fin (if c.1 = d.1 then 1 else 0) := by
      unfold Mat.get
      rw [mutEx_eq_ofRel, lookup_ofRel _ _ _ hk hj']
      unfold mxL oneIf
      by_cases h : c.1 = d.1
      · simp [h, FP.one_eq]
      · simp [h, FP.zero_eq]
    have hkj : k = j ↔ c = d := by
      constructor
      · rintro rfl; rw [hk] at hj'; exact Option.some.inj hj'
      · rintro rfl
        have hkl : k < (claims l).length := by
          by_contra h; rw [List.getElem?_eq_none (by omega)] at hk; simp at hk
        exact (List.getElem?_inj hkl (nodup_claims l)).1 (hk.trans hj'.symm)
    have hone : (if k = j then (Arith.ofNat 1 : FP (.binary64 ω)) else Arith.ofNat 0) = FP.fin (if c = d then 1 else 0) := by
      by_cases h : c = d
      · rw [if_pos (hkj.2 h), if_pos h, FP.one_eq]
      · rw [if_neg (fun e => h (hkj.1 e)), if_neg h, FP.zero_eq]
    rw [hat, hget, hone]
    exact (hZ c d hmem).1
  · rw [List.getElem?_eq_none (by simpa using hj), List.getElem?_eq_none (by simpa using hj)]

theorem crhAlpha_near (f : Option (V → X → X → Option (FP (.binary64 ω)))) (hl : l ≠ []) {e : ℝ}
    (he0 : (2 : ℝ) ^ (-60 : ℤ) ≤ e) (he1 : e ≤ 1)
    (hC : 4 * ((claims l).length * (claims l).length) + 1 ≤ 2 ^ 53) {B : V × X → ℝ} (hB : CrhGood l B) :
    ∃ α : S → ℝ, crhAlpha (FP.fin e) (matsOf l f) ((claims l).map fun c => FP.fin (B c)) = (sources l).map (fun s => FP.fin (α s)) ∧
      ∀ s ∈ sources l, Rep (.binary64 ω) (α s) ∧ Away 60 (α s) ∧ α s ≤ (4 * ((claims l).length * (claims l).length) + 1 : Nat) ∧
        Near (2 * (claims l).length + 4) (e + loss l B s) (α s) := by
  obtain ⟨Z, hZ, hz⟩ := crhZ_near l f hB
  set C := (claims l).length with hCdef
  have hC1 : 1 ≤ C := List.length_pos_iff.2 (claims_ne hl)
  have hp60 := two_zpow_pos (-60)
  -- the entries of the product with the source-claim matrix
  have hU : ∀ s d, ∃ y, d ∈ claims l → rowDot (claims l) (scL l s) (fun c => (FP.fin (Z c d) : FP (.binary64 ω))) = FP.fin y ∧
      Rep (.binary64 ω) y ∧ Away 242 y ∧ y ≤ (C * 4 : Nat) ∧
      Near (3 + C) (∑ c ∈ claimsOf l s, if c.1 = d.1 then (B d - if c = d then 1 else 0) ^ 2 else 0) y := by
    intro s d
    by_cases hd : d ∈ claims l
    swap
    · exact ⟨0, fun h => absurd h hd⟩
    have hlen : ((claims l).filter fun c => decide ((s, c) ∈ recorded l)).length ≤ C := List.length_filter_le _ _
    have hmem : ∀ c ∈ (claims l).filter (fun c => decide ((s, c) ∈ recorded l)), c ∈ claims l := fun c hc => List.mem_of_mem_filter hc
    obtain ⟨y, h1, h2, h3, h4, h5, -⟩ := near_foldl (ω := ω) (p := 242) (k := 3) (M := 4) (by norm_num)
      (F := fun c => if c.1 = d.1 then (B d - if c = d then 1 else 0) ^ 2 else 0) (G := fun c => Z c d)
      ((claims l).filter fun c => decide ((s, c) ∈ recorded l)) (by nlinarith)
      (fun c hc => ⟨(hZ c (hmem c hc) d hd).2.1, by simpa using (hZ c (hmem c hc) d hd).2.2.1⟩)
      (fun c hc => (hZ c (hmem c hc) d hd).2.2.2) (fun c _ => by split <;> positivity)
    refine ⟨y, fun _ => ⟨?_, h2, h3, h4.trans (by exact_mod_cast Nat.mul_le_mul_right 4 hlen), ?_⟩⟩
    · rw [rowDot_part (fun c => (s, c) ∈ recorded l) (fun c _ => scL_fp l s c) (fun c hc => (hZ c hc d hd).1)]
      exact h1
    · have e1 : (((claims l).filter fun c => decide ((s, c) ∈ recorded l)).map
          (fun c => if c.1 = d.1 then (B d - if c = d then 1 else 0) ^ 2 else (0 : ℝ))).sum =
          ∑ c ∈ claimsOf l s, if c.1 = d.1 then (B d - if c = d then 1 else 0) ^ 2 else 0 := by
        rw [← List.sum_toFinset _ ((nodup_claims l).filter _)]
        refine Finset.sum_congr ?_ fun _ _ => rfl
        ext c
        simp only [List.mem_toFinset, List.mem_filter, decide_eq_true_eq, mem_claimsOf]
        exact ⟨fun h => h.2, fun h => ⟨mem_claims_of_claimsOf l ((mem_claimsOf l).2 h), h⟩⟩
      rw [← e1]
      refine h5.mono (by omega) (sum_sub_nonneg (as := claims l) (fun c _ => by split <;> positivity) hmem) h3.nonneg
  choose U hU using hU
  -- the weights
  have hα : ∀ s, ∃ a, (FP.fin e +. Arith.dot ((claims l).map fun d => FP.fin (U s d)) (ones C) : FP (.binary64 ω)) = FP.fin a ∧
      Rep (.binary64 ω) a ∧ Away 60 a ∧ a ≤ (4 * (C * C) + 1 : Nat) ∧ Near (2 * C + 4) (e + loss l B s) a := by
    intro s
    obtain ⟨y, h1, h2, h3, h4, h5⟩ := near_dot_ones (ω := ω) (p := 242) (k := 3 + C) (M := C * 4) (by norm_num)
      (F := fun d => ∑ c ∈ claimsOf l s, if c.1 = d.1 then (B d - if c = d then 1 else 0) ^ 2 else 0) (G := U s)
      (claims l) (claims_ne hl) (by rw [← hCdef]; nlinarith)
      (fun d hd => ⟨(hU s d hd).2.1, (hU s d hd).2.2.1, (hU s d hd).2.2.2.1⟩) (fun d hd => (hU s d hd).2.2.2.2)
      (fun d _ => Finset.sum_nonneg fun c _ => by split <;> positivity)
    rw [← hCdef] at h1 h4 h5
    have e1 : ((claims l).map fun d => ∑ c ∈ claimsOf l s, if c.1 = d.1 then (B d - if c = d then 1 else 0) ^ 2 else (0 : ℝ)).sum =
        loss l B s := by
      rw [← List.sum_toFinset _ (nodup_claims l), claims_toFinset]
      simp only [loss]
      rw [Finset.sum_comm]
      apply Finset.sum_congr rfl
      intro c _
      rw [rivals, Finset.sum_filter]
    rw [e1] at h5
    have hloss := loss_nonneg (l := l) B s
    have hle : e + y ≤ (4 * (C * C) + 1 : Nat) := by
      push_cast at h4 ⊢; nlinarith
    obtain ⟨a, ha, ar, an, aw, ab⟩ := near_rnd (ω := ω) (p := 60) (by norm_num) (x := e + y)
      (.inr (by have := h3.nonneg; have : (2 : ℝ) ^ (-((60 : Nat) : ℤ)) = 2 ^ (-60 : ℤ) := by norm_num
                linarith)) (rep_nat_bound hC).1 hle (rep_nat_bound (ω := ω) hC).2
    refine ⟨a, ?_, ar, aw, ab, ?_⟩
    · rw [h1, FP.add_fin]; exact ha
    · have h0 : Near (3 + C + C) e e := (Near.refl e).mono (Nat.zero_le _) (by linarith) (by linarith)
      have := (h0.add h5).trans an
      exact this.mono (by omega) (by linarith) aw.nonneg
  choose α hα using hα
  refine ⟨α, ?_, fun s _ => (hα s).2⟩
  unfold crhAlpha
  rw [sc_eq_ofRel]
  unfold Mat.ofRel
  simp only [List.map_map]
  apply List.map_congr_left
  intro s _
  simp only [Function.comp_apply]
  have h1 : (matsOf l f).numClaims = C := rfl
  rw [h1]
  have hrow : ((List.range C).map fun j =>
      ((enum (claims l)).filterMap fun p => (scL l s p.2 : Option (FP (.binary64 ω))).map fun v => (p.1, v)).foldl
        (fun acc e => acc +. e.2 *. (crhZ (matsOf l f) ((claims l).map fun c => FP.fin (B c)) e.1).at j) (Arith.ofNat 0)) =
      (claims l).map fun d => FP.fin (U s d) := by
    apply List.ext_getElem?
    intro j
    rcases Nat.lt_or_ge j (claims l).length with hj | hj
    · simp only [List.getElem?_map, List.getElem?_range hj, List.getElem?_eq_getElem hj,
        Option.map_some, Option.some.injEq, hCdef]
      have hj' : (claims l)[j]? = some (claims l)[j] := List.getElem?_eq_getElem hj
      have hmem : (claims l)[j] ∈ claims l := List.getElem_mem hj
      generalize hd : (claims l)[j] = d at *
      have key : ∀ E : List (Nat × (V × X)), (∀ p ∈ E, p ∈ enum (claims l)) → ∀ a : FP (.binary64 ω),
          (E.filterMap fun p => (scL l s p.2 : Option (FP (.binary64 ω))).map fun v => (p.1, v)).foldl
            (fun acc e => acc +. e.2 *. (crhZ (matsOf l f) ((claims l).map fun c => FP.fin (B c)) e.1).at j) a =
          (E.map Prod.snd).foldl (rowStep (scL l s) fun c => FP.fin (Z c d)) a := by
        intro E
        induction E with
        | nil => intro _ a; rfl
        | cons p E ih =>
          intro hE a
          have ih' := ih (fun q hq => hE q (by simp [hq]))
          have hp := mem_enum.1 (hE p (by simp))
          have hz' : (crhZ (matsOf l f) ((claims l).map fun c => (FP.fin (B c) : FP (.binary64 ω))) p.1).at j = FP.fin (Z p.2 d) := by
            rw [hz _ _ hp]
            exact Vec.at_map (F := fun d => (FP.fin (Z p.2 d) : FP (.binary64 ω))) (p := (j, d)) (mem_enum.2 hj')
          cases hg : (scL l s p.2 : Option (FP (.binary64 ω))) with
          | none =>
            simp only [List.filterMap_cons, hg, Option.map_none, List.map_cons, List.foldl_cons, rowStep]
            exact ih' a
          | some v =>
            simp only [List.filterMap_cons, hg, Option.map_some, List.map_cons, List.foldl_cons, rowStep, hz']
            exact ih' _
      rw [key _ (fun _ h => h), enum_map_snd]
      exact (hU s d hmem).1
    · rw [List.getElem?_eq_none (by simpa using hj), List.getElem?_eq_none (by simpa using hj)]
  rw [hrow]
  exact (hα s).1

/-- Logarithms of numbers that are near each other. -/
theorem Near.log {m : Nat} {x y : ℝ} (h : Near m x y) (hx : 0 < x) (hy : 0 < y) : |Real.log y - Real.log x| ≤ 2 * (m * uu) := by
  have hu := uu_pos
  have hu1 := uu_le
  have key : ∀ {x y : ℝ}, 0 < x → 0 < y → x * (1 - uu) ^ m ≤ y → Real.log x - 2 * (m * uu) ≤ Real.log y := by
    intro x y hx hy h
    have h1 := Real.log_le_log (mul_pos hx (pow_sub_pos m)) h
    rw [Real.log_mul hx.ne' (pow_sub_pos m).ne', Real.log_pow] at h1
    have h2 : -(2 * uu) ≤ Real.log (1 - uu) := by
      have := Real.one_sub_inv_le_log_of_pos one_sub_pos
      refine le_trans ?_ this
      rw [neg_le_sub_iff_le_add, inv_le_iff_one_le_mul₀ one_sub_pos]
      nlinarith
    have h3 := mul_le_mul_of_nonneg_left h2 (Nat.cast_nonneg (α := ℝ) m)
    linarith
  rw [abs_le]
  have h1 := key hx hy h.1
  have h2 := key hy hx h.2
  constructor <;> linarith

/-- The new trust scores. -/
theorem crh_trust_near (f : Option (V → X → X → Option (FP (.binary64 ω)))) (hl : l ≠ []) {e : ℝ}
    (he : IsDouble e) (he0 : (2 : ℝ) ^ (-60 : ℤ) ≤ e) (he1 : e ≤ 1)
    (hsize : (sources l).length * (4 * ((claims l).length * (claims l).length) + 1) ≤ 2 ^ 53) {B : V × X → ℝ} (hB : CrhGood l B)
    (t0 : S → ℝ) :
    ∃ T : S → ℝ, (crhAlpha (FP.fin e) (matsOf l f) ((claims l).map fun c => FP.fin (B c))).map (fun a =>
        (FP.fin e -. Arith.log (a /. Arith.sum (crhAlpha (FP.fin e) (matsOf l f) ((claims l).map fun c => FP.fin (B c)))) :
          FP (.binary64 ω))) = (sources l).map (fun s => FP.fin (T s)) ∧
      ∀ s ∈ sources l, IsDouble (T s) ∧ e ≤ T s ∧ T s ≤ 128 ∧
        |T s - (crhStep l e (t0, B)).1 s| ≤ (4 * (claims l).length + (sources l).length + 144) / 2 ^ 52 := by
  have he' : Rep (.binary64 ω) e := (C31_nearest e).2.2.2 he
  have hS1 : 1 ≤ (sources l).length := List.length_pos_iff.2 (sources_ne hl)
  obtain ⟨α, hα, hs⟩ := crhAlpha_near l f hl he0 he1 ((Nat.le_mul_of_pos_left _ hS1).trans hsize) hB
  rw [hα]
  set C := (claims l).length with hCdef
  set M := 4 * (C * C) + 1 with hMdef
  have hepos : 0 < e := (two_zpow_pos _).trans_le he0
  obtain ⟨tot, ht1, ht2, ht3, ht4, ht5⟩ := near_sum (ω := ω) (p := 60) (by norm_num) (F := fun s => e + loss l B s) (G := α)
    (sources l) (sources_ne hl) hsize (fun s h => ⟨(hs s h).1, (hs s h).2.1, (hs s h).2.2.1⟩) (fun s h => (hs s h).2.2.2)
    (fun s _ => by have := loss_nonneg (l := l) B s; linarith)
  have hA : ((sources l).map fun s => e + loss l B s).sum = ∑ r ∈ allSources l, (e + loss l B r) := by
    rw [← List.sum_toFinset _ (nodup_sources l), sources_toFinset]
  rw [hA] at ht5
  obtain ⟨tot', hb1, -, -, -, hb5⟩ := sum_btw (R := .binary64 ω) (K := (sources l).length) (M := (M : ℝ))
    (fun k hk => by
      rw [← Nat.cast_mul]
      exact rep64_nat ((Nat.mul_le_mul_right _ hk).trans hsize)) (Nat.cast_nonneg _) ((sources l).map fun s => FP.fin (α s)) (by simp)
    (by
      intro x hx
      obtain ⟨s, h, rfl⟩ := List.mem_map.1 hx
      exact ⟨α s, rfl, (hs s h).1, (hs s h).2.1.nonneg, (hs s h).2.2.1⟩)
  obtain rfl : tot' = tot := by rw [ht1] at hb1; exact (FP.fin_inj.1 hb1).symm
  have htot : tot' ≤ 2 ^ (53 : ℤ) := by
    refine ht4.trans ?_
    exact_mod_cast hsize
  have hT : ∀ s, ∃ g, s ∈ sources l →
      (FP.fin e -. Arith.log (FP.fin (α s) /. Arith.sum ((sources l).map fun s => FP.fin (α s))) : FP (.binary64 ω)) = FP.fin g ∧
      IsDouble g ∧ e ≤ g ∧ g ≤ 128 ∧ |g - (crhStep l e (t0, B)).1 s| ≤ (4 * C + (sources l).length + 144) / 2 ^ 52 := by
    intro s
    by_cases h : s ∈ sources l
    swap
    · exact ⟨0, fun h' => absurd h' h⟩
    obtain ⟨ur, uw, u1, un⟩ := hs s h
    have hx := crhT_ge hl hepos B h
    have hl1 : 0 < e + loss l B s := by have := loss_nonneg (l := l) B s; linarith
    have hupos : 0 < α s := lt_of_lt_of_le (mul_pos hl1 (pow_sub_pos _)) un.1
    have hu60 : (2 : ℝ) ^ (-60 : ℤ) ≤ α s := by
      rcases uw with h0 | h0
      · exact absurd h0 hupos.ne'
      · simpa using h0
    have hut : α s ≤ tot' := hb5 _ (List.mem_map_of_mem h) (α s) rfl
    have htpos : 0 < tot' := hupos.trans_le hut
    have hq : (2 : ℝ) ^ (-113 : ℤ) ≤ α s / tot' := by
      rw [le_div_iff₀ htpos]
      calc (2 : ℝ) ^ (-113 : ℤ) * tot' ≤ 2 ^ (-113 : ℤ) * 2 ^ (53 : ℤ) :=
            mul_le_mul_of_nonneg_left htot (Double.two_zpow_pos _).le
        _ = 2 ^ (-60 : ℤ) := by rw [← zpow_add₀ two_ne_zero]; norm_num
        _ ≤ α s := hu60
    obtain ⟨q, hq1, qr, qn, qw, q1⟩ := near_rnd (ω := ω) (p := 113) (by norm_num) (x := α s / tot') (.inr (by simpa using hq)) rep_one
      ((div_le_one htpos).2 hut) (by have := le_big (k := 0) (by norm_num); simpa using this)
    have hsumpos : 0 < ∑ r ∈ allSources l, (e + loss l B r) := by
      by_contra hneg
      have := ht5.2
      have h2 := mul_pos htpos (pow_sub_pos (2 * C + 4 + (sources l).length))
      linarith
    have hqpos : 0 < q := lt_of_lt_of_le (mul_pos (div_pos hupos htpos) (pow_sub_pos 1)) qn.1
    have hqn := (un.div ht5 hl1.le hsumpos htpos).trans qn
    have hlogerr := hqn.log hx.1 hqpos
    have q0 : (2 : ℝ) ^ (-113 : ℤ) ≤ q := by
      rcases qw with h0 | h0
      · exact absurd h0 hqpos.ne'
      · simpa using h0
    have hlog0 : Real.log q ≤ 0 := Real.log_nonpos hqpos.le q1
    have hlog1 : -((113 : Nat) : ℝ) ≤ Real.log q := by
      have h1 := Real.log_le_log (Double.two_zpow_pos _) q0
      rw [Real.log_zpow] at h1
      have h2 : Real.log 2 ≤ 1 := by
        have := Real.log_le_sub_one_of_pos (zero_lt_two (α := ℝ))
        linarith
      push_cast at h1 ⊢
      linarith
    obtain ⟨g, hg1, gr, g0, g1⟩ := faithful_between ((Rounding.binary64 ω).log_faithful q hqpos) (rep_neg (rep64_nat (n := 113) (by norm_num)))
      rep_zero hlog1 hlog0
    -- the error of the logarithm
    have hδ := ω.logErr_le q
    have h55 : (2⁻¹ : ℝ) ^ 55 = uu / 4 := by unfold uu; norm_num
    rw [h55] at hδ
    have hu := uu_pos
    have hu1 := uu_le
    have habs : |Real.log q| ≤ 113 := by rw [abs_of_nonpos hlog0]; push_cast at hlog1; linarith
    have hw : |Real.log q * (1 + ω.logErr q) - Real.log q| ≤ 113 * (uu / 4) := by
      rw [show Real.log q * (1 + ω.logErr q) - Real.log q = Real.log q * ω.logErr q by ring, abs_mul]
      exact mul_le_mul habs hδ (abs_nonneg _) (by norm_num)
    have hw2 : |Real.log q * (1 + ω.logErr q)| ≤ 114 := by
      rw [abs_mul]
      have : |1 + ω.logErr q| ≤ 1 + uu := by
        have := abs_add_le 1 (ω.logErr q)
        rw [abs_one] at this
        linarith
      calc |Real.log q| * |1 + ω.logErr q| ≤ 113 * (1 + uu) := mul_le_mul habs this (abs_nonneg _) (by norm_num)
        _ ≤ 114 := by nlinarith
    obtain ⟨g', hg', dg, eg, -⟩ := round_err (ω := ω) (x := Real.log q * (1 + ω.logErr q)) (hw2.trans (by
      have := le_big (k := 7) (by norm_num)
      norm_num at this ⊢
      linarith))
    obtain rfl : g' = g := by
      have : (Rounding.binary64 ω).rnd (Real.log q * (1 + ω.logErr q)) = .fin g := hg1
      rw [hg'] at this
      injection this
    push_cast at g0
    obtain ⟨r, hr, dr, er⟩ := add_err (ω := ω) he dg.neg (by
      rw [abs_of_nonneg (by linarith)]
      have := le_big (k := 7) (by norm_num)
      norm_num at this ⊢
      linarith)
    rw [← sub_eq_add_neg] at hr er
    obtain ⟨r', hr', -, r0, r1⟩ := rnd_between (R := .binary64 ω) he' (rep64_nat (n := 128) (by norm_num)) (by linarith : e ≤ e - g')
      (by push_cast; linarith : e - g' ≤ ((128 : Nat) : ℝ))
    obtain rfl : r' = r := by rw [hr] at hr'; injection hr' with h; exact h.symm
    push_cast at r1
    have e1 : (FP.fin (α s) /. Arith.sum ((sources l).map fun s => FP.fin (α s)) : FP (.binary64 ω)) = FP.fin q := by
      rw [ht1, FP.div_fin _ htpos.ne']; exact hq1
    have e2 : (Arith.log (FP.fin q : FP (.binary64 ω))) = FP.fin g' := by
      show FNum.log (.binary64 ω) (.fin q) = _
      simp only [FNum.log]
      rw [if_neg (by linarith), if_neg (by linarith), hg1]
      rfl
    have e3 : (FP.fin e -. FP.fin g' : FP (.binary64 ω)) = (Rounding.binary64 ω).rnd (e - g') := by
      show FNum.add (.binary64 ω) (FNum.fin e) (FNum.neg (FNum.fin g')) = _
      simp [FNum.neg, FNum.add, sub_eq_add_neg]
    refine ⟨r', fun _ => ⟨?_, dr, r0, r1, ?_⟩⟩
    · rw [e1, e2, e3]; exact hr
    · have hee : ee ≤ uu := by
        unfold ee uu
        exact zpow_le_zpow_right₀ one_le_two (by norm_num)
      rw [abs_of_nonneg (by linarith : 0 ≤ e - g')] at er
      have er' : |r' - (e - g')| ≤ uu * 114 := er.trans (mul_le_mul_of_nonneg_left (by linarith) hu.le)
      have eg' : |g' - Real.log q * (1 + ω.logErr q)| ≤ uu * 114 + uu :=
        eg.trans (add_le_add (mul_le_mul_of_nonneg_left hw2 hu.le) hee)
      show |r' - (e - Real.log ((e + loss l B s) / ∑ r ∈ allSources l, (e + loss l B r)))| ≤ _
      generalize Real.log ((e + loss l B s) / ∑ r ∈ allSources l, (e + loss l B r)) = L at *
      have huu : uu = 1 / 2 ^ 53 := by rw [uu, zpow_neg]; norm_num
      have hm : ((2 * C + 4 + (2 * C + 4 + (sources l).length) + 1 : Nat) : ℝ) = 4 * C + (sources l).length + 9 := by push_cast; ring
      rw [hm] at hlogerr
      have hgoal : (4 * (C : ℝ) + (sources l).length + 144) / 2 ^ 52 = 2 * ((4 * C + (sources l).length + 9) * uu) + 270 * uu := by
        rw [huu]; ring
      rw [hgoal]
      rw [abs_le] at *
      constructor <;> linarith
  choose T hT using hT
  refine ⟨T, ?_, fun s h => (hT s h).2⟩
  rw [List.map_map]
  exact List.map_congr_left fun s h => (hT s h).1

/-- The new beliefs. -/
theorem crh_belief_near (f : Option (V → X → X → Option (FP (.binary64 ω)))) (hl : l ≠ []) (hS : (sources l).length ≤ 2 ^ 46)
    {T : S → ℝ} (hT : ∀ s ∈ sources l, IsDouble (T s) ∧ (2 : ℝ) ^ (-60 : ℤ) ≤ T s ∧ T s ≤ 128) :
    ∃ B : V × X → ℝ, ((matsOf l f).sc.T.mulVec ((sources l).map fun s => FP.fin (T s))).map
        (· /. Arith.sum ((sources l).map fun s => FP.fin (T s))) = (claims l).map (fun c => (FP.fin (B c) : FP (.binary64 ω))) ∧
      CrhGood l B ∧ ∀ c ∈ claims l, |B c - (∑ s ∈ sourcesOf l c, T s) / ∑ r ∈ allSources l, T r| ≤
        (∑ s ∈ sourcesOf l c, T s) / (∑ r ∈ allSources l, T r) * ((2 * (sources l).length + 1) / 2 ^ 52) := by
  set N := (sources l).length with hN
  have hrep : ∀ s ∈ sources l, Rep (.binary64 ω) (T s) := fun s h => (C31_nearest _).2.2.2 (hT s h).1
  have haw : ∀ s ∈ sources l, Away 60 (T s) := fun s h => .inr (by simpa using (hT s h).2.1)
  have h0 : ∀ s ∈ sources l, 0 ≤ T s := fun s h => (haw s h).nonneg
  obtain ⟨tot, ht1, ht2, ht3, ht4, ht5⟩ := near_sum (ω := ω) (p := 60) (k := 0) (M := 128) (by norm_num) (F := T) (G := T)
    (sources l) (sources_ne hl) (by omega) (fun s h => ⟨hrep s h, haw s h, by simpa using (hT s h).2.2⟩)
    (fun s _ => Near.refl _) h0
  have hA : ((sources l).map T).sum = ∑ r ∈ allSources l, T r := by
    rw [← List.sum_toFinset _ (nodup_sources l), sources_toFinset]
  rw [hA] at ht5
  have hApos : 0 < ∑ r ∈ allSources l, T r :=
    Finset.sum_pos (fun r hr => (two_zpow_pos _).trans_le (hT r ((mem_allSources l).1 hr)).2.1) (allSources_nonempty hl)
  have htpos : 0 < tot := lt_of_lt_of_le (mul_pos hApos (pow_sub_pos _)) ht5.1
  have htot : tot ≤ 2 ^ (53 : ℤ) := by
    refine ht4.trans ?_
    have : N * 128 ≤ 2 ^ 53 := by omega
    exact_mod_cast this
  have hB : ∀ c, ∃ y, c ∈ claims l → (rowDot (sources l) (fun s => scL l s c) (fun s => FP.fin (T s)) /.
        Arith.sum ((sources l).map fun s => FP.fin (T s)) : FP (.binary64 ω)) = FP.fin y ∧
      (IsDouble y ∧ (2 : ℝ) ^ (-120 : ℤ) ≤ y ∧ y ≤ 2) ∧
      |y - (∑ s ∈ sourcesOf l c, T s) / ∑ r ∈ allSources l, T r| ≤
        (∑ s ∈ sourcesOf l c, T s) / (∑ r ∈ allSources l, T r) * ((2 * N + 1) / 2 ^ 52) := by
    intro c
    by_cases hc : c ∈ claims l
    swap
    · exact ⟨0, fun h => absurd h hc⟩
    have hlen : ((sources l).filter fun s => decide ((s, c) ∈ recorded l)).length ≤ N := List.length_filter_le _ _
    have hmem : ∀ s ∈ (sources l).filter (fun s => decide ((s, c) ∈ recorded l)), s ∈ sources l := fun s hs => List.mem_of_mem_filter hs
    obtain ⟨y, h1, h2, h3, h4, h5, h6⟩ := near_foldl (ω := ω) (p := 60) (k := 0) (M := 128) (by norm_num) (F := T) (G := T)
      ((sources l).filter fun s => decide ((s, c) ∈ recorded l)) (by omega)
      (fun s hs => ⟨haw s (hmem s hs), by simpa using (hT s (hmem s hs)).2.2⟩) (fun s _ => Near.refl _) (fun s hs => h0 s (hmem s hs))
    have e1 : (((sources l).filter fun s => decide ((s, c) ∈ recorded l)).map T).sum = ∑ s ∈ sourcesOf l c, T s := by
      rw [← List.sum_toFinset _ ((nodup_sources l).filter _)]
      refine Finset.sum_congr ?_ fun _ _ => rfl
      ext s
      simp only [List.mem_toFinset, List.mem_filter, decide_eq_true_eq, mem_sourcesOf]
      exact ⟨fun h => h.2, fun h => ⟨mem_sources_of_sourcesOf l ((mem_sourcesOf l).2 h), h⟩⟩
    rw [e1] at h5
    obtain ⟨s, hs⟩ := sourcesOf_nonempty l hc
    have hs' := mem_sources_of_sourcesOf l hs
    have hle : ∑ s ∈ sourcesOf l c, T s ≤ ∑ r ∈ allSources l, T r :=
      Finset.sum_le_sum_of_subset_of_nonneg (fun s hs => (mem_allSources l).2 (mem_sources_of_sourcesOf l hs))
        (fun s hs _ => h0 s ((mem_allSources l).1 hs))
    have hsum0 : 0 ≤ ∑ s ∈ sourcesOf l c, T s := Finset.sum_nonneg fun s hs => h0 s (mem_sources_of_sourcesOf l hs)
    have ypos : 0 < y := h6 s (List.mem_filter.2 ⟨hs', by simpa using (mem_sourcesOf l).1 hs⟩)
      ((two_zpow_pos _).trans_le (hT s hs').2.1)
    have hy60 : (2 : ℝ) ^ (-60 : ℤ) ≤ y := by
      rcases h3 with h | h
      · exact absurd h ypos.ne'
      · simpa using h
    have hn : Near (N + N) ((∑ s ∈ sourcesOf l c, T s) / ∑ r ∈ allSources l, T r) (y / tot) := by
      have := (h5.mono (m := N) (by omega) hsum0 ypos.le).div ht5 hsum0 hApos htpos
      exact this.mono (by omega) (div_nonneg hsum0 hApos.le) (div_pos ypos htpos).le
    have hσ0 : 0 ≤ (∑ s ∈ sourcesOf l c, T s) / ∑ r ∈ allSources l, T r := div_nonneg hsum0 hApos.le
    have hσ1 : (∑ s ∈ sourcesOf l c, T s) / ∑ r ∈ allSources l, T r ≤ 1 := (div_le_one hApos).2 hle
    generalize (∑ s ∈ sourcesOf l c, T s) / ∑ r ∈ allSources l, T r = σ at *
    have hyt : y / tot ≤ ((2 : Nat) : ℝ) := by
      have h := hn.abs_sub_le hσ0 (by omega)
      have hk : σ * ((N + N : Nat) : ℝ) / 2 ^ 52 ≤ 1 := by
        have : ((N + N : Nat) : ℝ) ≤ 2 ^ 52 := by exact_mod_cast (by omega : N + N ≤ 2 ^ 52)
        rw [div_le_one (by positivity)]
        calc σ * ((N + N : Nat) : ℝ) ≤ 1 * 2 ^ 52 := mul_le_mul hσ1 this (Nat.cast_nonneg _) (by norm_num)
          _ = 2 ^ 52 := one_mul _
      have := (abs_le.1 h).2
      push_cast
      linarith
    have hq : (2 : ℝ) ^ (-((113 : Nat) : ℤ)) ≤ y / tot := by
      rw [le_div_iff₀ htpos]
      calc (2 : ℝ) ^ (-((113 : Nat) : ℤ)) * tot ≤ 2 ^ (-((113 : Nat) : ℤ)) * 2 ^ (53 : ℤ) :=
            mul_le_mul_of_nonneg_left htot (Double.two_zpow_pos _).le
        _ = 2 ^ (-60 : ℤ) := by rw [← zpow_add₀ two_ne_zero]; norm_num
        _ ≤ y := hy60
    obtain ⟨z, hz, zr, zn, zw, zb⟩ := near_rnd (ω := ω) (p := 113) (by norm_num) (.inr hq) (rep64_nat (n := 2) (by norm_num)) hyt
      (by have := le_big (k := 1) (by norm_num); simpa using this)
    have zpos : 0 < z := lt_of_lt_of_le (mul_pos (div_pos ypos htpos) (pow_sub_pos 1)) zn.1
    refine ⟨z, fun _ => ⟨?_, ⟨((C31_nearest _).1 _ hz).1, ?_, by simpa using zb⟩, ?_⟩⟩
    · rw [rowDot_part (fun s => (s, c) ∈ recorded l) (fun s _ => scL_fp l s c) hrep, h1, ht1, FP.div_fin _ htpos.ne']
      exact hz
    · rcases zw with h | h
      · exact absurd h zpos.ne'
      · exact le_trans (zpow_le_zpow_right₀ one_le_two (by norm_num)) h
    · have := (hn.trans zn).abs_sub_le hσ0 (by omega)
      refine this.trans_eq ?_
      push_cast
      ring
  choose B hB using hB
  refine ⟨B, ?_, fun c hc => (hB c hc).2.1, fun c hc => (hB c hc).2.2⟩
  rw [scT_eq_ofRel, Mat.mulVec_ofRel, List.map_map]
  exact List.map_congr_left fun c hc => (hB c hc).1

end
end TD
