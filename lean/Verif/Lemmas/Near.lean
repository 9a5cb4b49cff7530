import Verif.Lemmas.RoundError
/-! Relative errors of binary64 sums and quotients of nonnegative numbers. -/

namespace TD
open Spec Double
attribute [-instance] instBEqProd

/-- `y` is `x` up to the relative errors of `k` roundings. -/
def Near (k : Nat) (x y : ℝ) : Prop := x * (1 - uu) ^ k ≤ y ∧ y * (1 - uu) ^ k ≤ x

theorem uu_lt_one : uu < 1 := by have := uu_le; linarith
theorem one_sub_pos : 0 < 1 - uu := by have := uu_lt_one; linarith
theorem pow_sub_pos (k : Nat) : 0 < (1 - uu) ^ k := pow_pos one_sub_pos k
theorem pow_sub_le (k : Nat) : (1 - uu) ^ k ≤ 1 := pow_le_one₀ one_sub_pos.le (by have := uu_pos; linarith)

namespace Near
variable {k m : Nat} {x y z x' y' : ℝ}

theorem refl (x : ℝ) : Near 0 x x := by simp [Near]

theorem symm (h : Near k x y) : Near k y x := ⟨h.2, h.1⟩

theorem mono (h : Near k x y) (hkm : k ≤ m) (hx : 0 ≤ x) (hy : 0 ≤ y) : Near m x y := by
  have : (1 - uu) ^ m ≤ (1 - uu) ^ k := pow_le_pow_of_le_one one_sub_pos.le (by have := uu_pos; linarith) hkm
  exact ⟨(mul_le_mul_of_nonneg_left this hx).trans h.1, (mul_le_mul_of_nonneg_left this hy).trans h.2⟩

theorem trans (h : Near k x y) (h' : Near m y z) : Near (k + m) x z := by
  constructor
  · rw [pow_add, ← mul_assoc]
    exact (mul_le_mul_of_nonneg_right h.1 (pow_sub_pos m).le).trans h'.1
  · rw [add_comm, pow_add, ← mul_assoc]
    exact (mul_le_mul_of_nonneg_right h'.2 (pow_sub_pos k).le).trans h.2

theorem add (h : Near k x y) (h' : Near k x' y') : Near k (x + x') (y + y') := by
  constructor <;> · rw [add_mul]; linarith [h.1, h.2, h'.1, h'.2]

theorem smul (h : Near k x y) {c : ℝ} (hc : 0 ≤ c) : Near k (c * x) (c * y) := by
  constructor
  · rw [mul_assoc]; exact mul_le_mul_of_nonneg_left h.1 hc
  · rw [mul_assoc]; exact mul_le_mul_of_nonneg_left h.2 hc

theorem nonneg (h : Near k x y) (hx : 0 ≤ x) : 0 ≤ y := le_trans (mul_nonneg hx (pow_sub_pos k).le) h.1

theorem mul (h : Near k x y) (h' : Near m x' y') (hx : 0 ≤ x) (hy' : 0 ≤ y') : Near (k + m) (x * x') (y * y') := by
  have h1 : Near m (x * x') (x * y') := h'.smul hx
  have h2 : Near k (x * y') (y * y') := by rw [mul_comm x, mul_comm y]; exact h.smul hy'
  rw [add_comm]
  exact h1.trans h2

theorem eq_zero (h : Near k x y) (hy : 0 ≤ y) (h0 : x = 0) : y = 0 := by
  have := h.2
  rw [h0] at this
  have h1 := pow_sub_pos k
  by_contra hne
  have : 0 < y * (1 - uu) ^ k := mul_pos (lt_of_le_of_ne hy (Ne.symm hne)) h1
  linarith

/-- The error in the usual form. -/
theorem abs_sub_le (h : Near k x y) (hx : 0 ≤ x) (hk : k ≤ 2 ^ 52) : |y - x| ≤ x * k / 2 ^ 52 := by
  have hb : 1 - k * uu ≤ (1 - uu) ^ k := by
    have := one_add_mul_le_pow (a := -uu) (by have := uu_lt_one; linarith) k
    calc 1 - k * uu = 1 + k * -uu := by ring
      _ ≤ (1 + -uu) ^ k := this
      _ = (1 - uu) ^ k := by rw [← sub_eq_add_neg]
  have hu : uu = 1 / 2 ^ 53 := by rw [uu, zpow_neg]; norm_num
  have hk' : (k : ℝ) * uu ≤ 1 / 2 := by
    rw [hu]
    have : (k : ℝ) ≤ 2 ^ 52 := by exact_mod_cast hk
    linarith
  have hy := h.nonneg hx
  have e : x * k / 2 ^ 52 = x * (2 * (k * uu)) := by rw [hu]; ring
  rw [e, abs_le]
  have hku : 0 ≤ (k : ℝ) * uu := mul_nonneg (Nat.cast_nonneg k) uu_pos.le
  constructor
  · have := mul_le_mul_of_nonneg_left hb hx
    have h1 := h.1
    nlinarith
  · have h2 := (mul_le_mul_of_nonneg_left hb hy).trans h.2
    have h3 : y ≤ 2 * x := by nlinarith
    nlinarith

end Near

/-- 0, or not so small that rounding loses digits. -/
def Away (p : Nat) (y : ℝ) : Prop := y = 0 ∨ 2 ^ (-(p : ℤ)) ≤ y

theorem Away.nonneg {p : Nat} {y : ℝ} (h : Away p y) : 0 ≤ y := by
  rcases h with rfl | h
  · exact le_rfl
  · exact (two_zpow_pos _).le.trans h

theorem Away.mono {p q : Nat} {y : ℝ} (h : Away p y) (hpq : p ≤ q) : Away q y := by
  refine h.imp_right (le_trans (zpow_le_zpow_right₀ one_le_two ?_))
  omega

theorem Away.add {p : Nat} {x y : ℝ} (h : Away p x) (h' : Away p y) : Away p (x + y) := by
  rcases h with rfl | h
  · rwa [zero_add]
  · exact .inr (by linarith [h'.nonneg])

variable {ω : Platform}

/-- One rounding. -/
theorem near_rnd {p : Nat} (hp : p ≤ 1022) {x b : ℝ} (h : Away p x) (hb : Rep (.binary64 ω) b) (hxb : x ≤ b)
    (hbig : b ≤ big) :
    ∃ y, (Rounding.binary64 ω).rnd x = .fin y ∧ Rep (.binary64 ω) y ∧ Near 1 x y ∧ Away p y ∧ y ≤ b := by
  rcases h with rfl | h
  · exact ⟨0, rep_zero, rep_zero, by simp [Near], .inl rfl, hxb⟩
  · have hx : 0 < x := lt_of_lt_of_le (two_zpow_pos _) h
    obtain ⟨y, hy, yr, y1, y2⟩ := rnd_between (R := .binary64 ω)
      (rep64_pow (e := -(p : ℤ)) (by omega) (by omega)) hb h hxb
    obtain ⟨y', hy', -, he⟩ := round_pos (ω := ω) hx (hxb.trans hbig)
    obtain rfl : y = y' := by rw [hy] at hy'; exact FNum.fin.inj hy'
    refine ⟨y, hy, yr, ?_, .inr y1, y2⟩
    have hn : (2 : ℝ) ^ (-1022 : ℤ) ≤ 2 ^ (-(p : ℤ)) := zpow_le_zpow_right₀ one_le_two (by omega)
    have := abs_le.1 (he (hn.trans h))
    constructor
    · rw [pow_one]; linarith
    · rw [pow_one]
      have h1 : y * (1 - uu) ≤ (x + uu * x) * (1 - uu) :=
        mul_le_mul_of_nonneg_right (by linarith) one_sub_pos.le
      have h2 : (x + uu * x) * (1 - uu) = x - x * uu ^ 2 := by ring
      have h3 : 0 ≤ x * uu ^ 2 := by positivity
      linarith

/-- A function of the C library. -/
theorem near_lib {p : Nat} (hp : p ≤ 1021) {x b δ : ℝ} (h : Away p x) (hb : Rep (.binary64 ω) b) (hxb : x ≤ b)
    (hbig : 2 * b ≤ big) (hδ : |δ| ≤ 2⁻¹ ^ 55) :
    ∃ y, (Rounding.binary64 ω).rnd (x * (1 + δ)) = .fin y ∧ Rep (.binary64 ω) y ∧ Near 2 x y ∧ Away p y ∧ y ≤ b := by
  rcases h with rfl | h
  · exact ⟨0, by rw [zero_mul]; exact rep_zero, rep_zero, by simp [Near], .inl rfl, hxb⟩
  · have hx : 0 < x := lt_of_lt_of_le (two_zpow_pos _) h
    have hd := abs_le.1 hδ
    have h55 : (2⁻¹ : ℝ) ^ 55 = uu / 4 := by unfold uu; norm_num
    rw [h55] at hd
    have hu := uu_pos
    have hu1 := uu_lt_one
    obtain ⟨y, hy, yr, y1, y2⟩ := faithful_between (R := .binary64 ω) (Double.faithful x hδ)
      (rep64_pow (e := -(p : ℤ)) (by omega) (by omega)) hb h hxb
    have hw : 0 < x * (1 + δ) := mul_pos hx (by linarith [hd.1])
    have hwb : x * (1 + δ) ≤ big := by nlinarith [hd.2]
    obtain ⟨y', hy', -, he⟩ := round_pos (ω := ω) hw hwb
    obtain rfl : y = y' := by rw [hy] at hy'; exact FNum.fin.inj hy'
    refine ⟨y, hy, yr, ?_, .inr y1, y2⟩
    have hn : (2 : ℝ) ^ (-1022 : ℤ) ≤ x * (1 + δ) := by
      have h1 : (2 : ℝ) ^ (-1022 : ℤ) * 2 ≤ 2 ^ (-(p : ℤ)) := by
        rw [← zpow_add_one₀ two_ne_zero]
        exact zpow_le_zpow_right₀ one_le_two (by omega)
      nlinarith [hd.1]
    have n1 : Near 1 x (x * (1 + δ)) := by
      constructor
      · rw [pow_one]; exact mul_le_mul_of_nonneg_left (by linarith [hd.1]) hx.le
      · rw [pow_one, mul_assoc]
        refine mul_le_of_le_one_right hx.le ?_
        nlinarith [hd.2]
    have := abs_le.1 (he hn)
    generalize x * (1 + δ) = w at *
    refine n1.trans (m := 1) ?_
    constructor
    · rw [pow_one]; linarith
    · rw [pow_one]
      have h1 : y * (1 - uu) ≤ (w + uu * w) * (1 - uu) :=
        mul_le_mul_of_nonneg_right (by linarith) one_sub_pos.le
      have h2 : (w + uu * w) * (1 - uu) = w - w * uu ^ 2 := by ring
      have h3 : 0 ≤ w * uu ^ 2 := by positivity
      linarith

theorem rep_nat_bound {n : Nat} (h : n ≤ 2 ^ 53) : Rep (.binary64 ω) n ∧ (n : ℝ) ≤ big := by
  refine ⟨rep64_nat h, ?_⟩
  have h1 : (n : ℝ) ≤ 2 ^ 53 := by exact_mod_cast h
  refine h1.trans ?_
  rw [big, ← zpow_natCast]
  exact zpow_le_zpow_right₀ one_le_two (by norm_num)

/-- Numbers added one after the other. -/
theorem near_foldl {β : Type} {p k M : Nat} (hp : p ≤ 1022) {F G : β → ℝ} (L : List β)
    (hM : L.length * M ≤ 2 ^ 53) (hG : ∀ b ∈ L, Away p (G b) ∧ G b ≤ M) (hn : ∀ b ∈ L, Near k (F b) (G b))
    (hF : ∀ b ∈ L, 0 ≤ F b) :
    ∃ y, L.foldl (fun acc b => acc +. (FP.fin (G b) : FP (.binary64 ω))) (FP.fin 0) = FP.fin y ∧
      Rep (.binary64 ω) y ∧ Away p y ∧ y ≤ (L.length * M : Nat) ∧ Near (k + L.length) (L.map F).sum y ∧
      ∀ b ∈ L, 0 < G b → 0 < y := by
  have key : ∀ (L' : List β) (j : Nat) (A a : ℝ), j + L'.length = L.length → (∀ b ∈ L', b ∈ L) → Rep (.binary64 ω) a → Away p a →
      a ≤ (j * M : Nat) → Near (k + j) A a → 0 ≤ A →
      ∃ y, L'.foldl (fun acc b => acc +. (FP.fin (G b) : FP (.binary64 ω))) (FP.fin a) = FP.fin y ∧
        Rep (.binary64 ω) y ∧ Away p y ∧ y ≤ (L.length * M : Nat) ∧ Near (k + L.length) (A + (L'.map F).sum) y ∧
        (0 < a → 0 < y) ∧ ∀ b ∈ L', 0 < G b → 0 < y := by
    intro L'
    induction L' with
    | nil =>
      intro j A a hj _ ar aw ab an _
      simp only [List.length_nil, add_zero] at hj
      subst hj
      exact ⟨a, rfl, ar, aw, ab, by simpa using an, id, by simp⟩
    | cons b L' ih =>
      intro j A a hj hL ar aw ab an hA
      simp only [List.length_cons] at hj
      have hb := hL b (by simp)
      have hle : a + G b ≤ ((j + 1) * M : Nat) := by
        have := (hG b hb).2
        push_cast at ab ⊢
        linarith
      have hbd : (j + 1) * M ≤ 2 ^ 53 := le_trans (Nat.mul_le_mul_right _ (by omega)) hM
      obtain ⟨y, hy, yr, yn, yw, yb⟩ := near_rnd (ω := ω) hp (aw.add (hG b hb).1) (rep_nat_bound hbd).1 hle
        (rep_nat_bound (ω := ω) hbd).2
      have hFb := hF b hb
      have hn1 : Near (k + (j + 1)) (A + F b) y := by
        have h1 : Near (k + j) (F b) (G b) := (hn b hb).mono (by omega) hFb (hG b hb).1.nonneg
        exact (an.add h1).trans yn
      have hpos : 0 < a + G b → 0 < y := fun h => lt_of_lt_of_le (mul_pos h (pow_sub_pos 1)) yn.1
      obtain ⟨z, h1, h2, h3, h4, h5, h6, h7⟩ := ih (j + 1) (A + F b) y (by omega) (fun c hc => hL c (by simp [hc])) yr yw yb
        hn1 (by linarith)
      refine ⟨z, ?_, h2, h3, h4, ?_, fun ha => h6 (hpos ?_), fun c hc hc0 => ?_⟩
      · rw [List.foldl_cons, FP.add_fin]
        exact (congrArg (fun q => List.foldl _ q L') hy).trans h1
      · rw [List.map_cons, List.sum_cons, ← add_assoc]; exact h5
      · linarith [(hG b hb).1.nonneg]
      · rcases List.mem_cons.1 hc with rfl | hc
        · exact h6 (hpos (by linarith [aw.nonneg]))
        · exact h7 c hc hc0
  obtain ⟨y, h1, h2, h3, h4, h5, -, h7⟩ := key L 0 0 0 (by omega) (fun _ h => h) rep_zero (.inl rfl) (by simp)
    (by simp [Near]) le_rfl
  exact ⟨y, h1, h2, h3, h4, by simpa using h5, h7⟩

/-- Scores `G` computed with rounding, up to a common factor, and the scores `F` they stand for. -/
def Acc (ω : Platform) (p k M : Nat) {A : Type} (as : List A) (F G : A → ℝ) : Prop :=
  (∀ a ∈ as, Rep (.binary64 ω) (G a) ∧ Away p (G a) ∧ G a ≤ M ∧ 0 ≤ F a) ∧ (∃ a ∈ as, 0 < G a) ∧
    ∃ c : ℝ, 0 < c ∧ ∀ a ∈ as, Near k (c * F a) (G a)

theorem Acc.row {p k M : Nat} {B : Type} [DecidableEq B] {bs : List B} {F G : B → ℝ} (hp : p ≤ 1022)
    (h : Acc ω p k M bs F G) {g : B → Option (FP (.binary64 ω))} (P : B → Prop) [DecidablePred P]
    (hg : ∀ b ∈ bs, g b = if P b then some (FP.fin 1) else none) {n : Nat} (hn : (bs.filter P).length ≤ n)
    (hM : bs.length * M ≤ 2 ^ 53) {c : ℝ} (hc : 0 < c) (hnear : ∀ a ∈ bs, Near k (c * F a) (G a)) :
    ∃ y, rowDot bs g (fun b => FP.fin (G b)) = FP.fin y ∧ Rep (.binary64 ω) y ∧ Away p y ∧ y ≤ (bs.length * M : Nat) ∧
      Near (k + n) (c * ((bs.filter P).map F).sum) y ∧ ∀ b ∈ bs, P b → 0 < G b → 0 < y := by
  have hlen : (bs.filter P).length ≤ bs.length := List.length_filter_le _ _
  have hmem : ∀ b ∈ bs.filter P, b ∈ bs := fun b hb => List.mem_of_mem_filter hb
  obtain ⟨y, h1, h2, h3, h4, h5, h6⟩ := near_foldl (ω := ω) hp (F := fun b => c * F b) (G := G) (bs.filter P)
    (le_trans (Nat.mul_le_mul_right _ hlen) hM) (fun b hb => ⟨(h.1 b (hmem b hb)).2.1, (h.1 b (hmem b hb)).2.2.1⟩)
    (fun b hb => hnear b (hmem b hb)) (fun b hb => mul_nonneg hc.le (h.1 b (hmem b hb)).2.2.2)
  refine ⟨y, ?_, h2, h3, ?_, ?_, fun b hb hP hpos => h6 b (List.mem_filter.2 ⟨hb, by simpa using hP⟩) hpos⟩
  · rw [rowDot_part P hg fun b hb => (h.1 b hb).1]
    exact h1
  · refine h4.trans ?_
    exact_mod_cast Nat.mul_le_mul_right _ hlen
  · rw [List.sum_map_mul_left] at h5
    refine h5.mono (by omega) (mul_nonneg hc.le (List.sum_nonneg ?_)) h3.nonneg
    intro x hx
    obtain ⟨b, hb, rfl⟩ := List.mem_map.1 hx
    exact (h.1 b (hmem b hb)).2.2.2

/-- Division by the largest. -/
theorem Acc.normalise {p k M w : Nat} {A : Type} [DecidableEq A] {as : List A} {F G : A → ℝ} (h : Acc ω p k M as F G)
    (hM : M ≤ 2 ^ w) (hp : p + w ≤ 1022) :
    ∃ H : A → ℝ, TD.normalise (as.map fun a => (FP.fin (G a) : FP (.binary64 ω))) = .ok (as.map fun a => FP.fin (H a)) ∧
      Acc ω (p + w) (k + 1) 1 as F H ∧ ∃ a ∈ as, H a = 1 := by
  obtain ⟨h1, ⟨a0, ha0, hpos⟩, c, hc, hn⟩ := h
  obtain ⟨m, hm, hmax, hle⟩ := pyMax_fp (R := .binary64 ω) (List.ne_nil_of_mem ha0) G
  have hm0 : 0 < G m := lt_of_lt_of_le hpos (hle a0 ha0)
  have hmM : G m ≤ 2 ^ w := by
    have h2 := (h1 m hm).2.2.1
    have h3 : (M : ℝ) ≤ 2 ^ w := by exact_mod_cast hM
    exact h2.trans h3
  have haw : ∀ a ∈ as, Away (p + w) (G a / G m) := by
    intro a ha
    rcases (h1 a ha).2.1 with h0 | h0
    · exact .inl (by rw [h0, zero_div])
    · refine .inr ?_
      rw [le_div_iff₀ hm0]
      refine le_trans ?_ h0
      have : (2 : ℝ) ^ (-(p : ℤ)) = 2 ^ (-((p + w : Nat) : ℤ)) * 2 ^ w := by
        rw [← zpow_natCast, ← zpow_add₀ two_ne_zero]
        congr 1; push_cast; ring
      rw [this]
      exact mul_le_mul_of_nonneg_left hmM (two_zpow_pos _).le
  have hdiv : ∀ a, ∃ y, a ∈ as → (Rounding.binary64 ω).rnd (G a / G m) = .fin y ∧ Rep (.binary64 ω) y ∧
      Near 1 (G a / G m) y ∧ Away (p + w) y ∧ y ≤ 1 := by
    intro a
    by_cases ha : a ∈ as
    · obtain ⟨y, hy⟩ := near_rnd (ω := ω) hp (haw a ha) rep_one ((div_le_one hm0).2 (hle a ha))
        (by rw [big]; exact one_le_zpow₀ one_le_two (by norm_num))
      exact ⟨y, fun _ => hy⟩
    · exact ⟨0, fun h => absurd h ha⟩
  choose H hH using hdiv
  have hHm : H m = 1 := by
    have := (hH m hm).1
    rw [div_self hm0.ne', Rounding.one] at this
    injection this with this
    exact this.symm
  refine ⟨H, ?_, ⟨fun a ha => ?_, ⟨m, hm, by rw [hHm]; exact one_pos⟩, c / G m, by positivity, fun a ha => ?_⟩, m, hm, hHm⟩
  · unfold TD.normalise
    rw [hmax]
    simp only [bind, Except.bind, pure, Except.pure, List.map_map]
    congr 1
    apply List.map_congr_left
    intro a ha
    simp only [Function.comp_apply]
    rw [FP.div_fin _ hm0.ne']
    exact (hH a ha).1
  · obtain ⟨-, h2, -, h3, h4⟩ := hH a ha
    exact ⟨h2, h3, by simpa using h4, (h1 a ha).2.2.2⟩
  · have h2 : Near k (c / G m * F a) (G a / G m) := by
      have := (hn a ha).smul (c := 1 / G m) (by positivity)
      rw [show 1 / G m * (c * F a) = c / G m * F a by ring, show 1 / G m * G a = G a / G m by ring] at this
      exact this
    exact h2.trans (hH a ha).2.2.1

/-- Two sets of scores with the same factor and the largest score 1. -/
theorem Acc.near {p k : Nat} {A : Type} {as : List A} {F G : A → ℝ} (h : Acc ω p k 1 as F G)
    (hG : ∃ a ∈ as, G a = 1) (hF : ∃ a ∈ as, F a = 1) (hF1 : ∀ a ∈ as, F a ≤ 1) : ∀ a ∈ as, Near (2 * k) (F a) (G a) := by
  obtain ⟨h1, -, c, hc, hn⟩ := h
  obtain ⟨a, ha, ea⟩ := hG
  obtain ⟨b, hb, eb⟩ := hF
  have c1 : Near k 1 c := by
    constructor
    · rw [one_mul]
      have := (hn a ha).2
      rw [ea, one_mul] at this
      exact this.trans (mul_le_of_le_one_right hc.le (hF1 a ha))
    · have := (hn b hb).1
      rw [eb, mul_one] at this
      exact this.trans (by simpa using (h1 b hb).2.2.1)
  intro d hd
  have h2 : Near k (F d) (c * F d) := by
    have := c1.smul (h1 d hd).2.2.2
    rwa [mul_one, mul_comm] at this
  rw [two_mul]
  exact h2.trans (hn d hd)

end TD
