import Verif.Lemmas.InvestDouble
import Verif.Lemmas.Precision
/-! Rounding errors of whole runs of Investment and PooledInvestment in binary64. -/

namespace TD
open Spec Double
attribute [-instance] instBEqProd
variable {ω : Platform}

theorem Near.inv {k : Nat} {x y : ℝ} (h : Near k x y) (hx : 0 < x) (hy : 0 < y) : Near k x⁻¹ y⁻¹ := by
  constructor
  · rw [← div_eq_inv_mul, div_le_iff₀ hx, ← div_eq_inv_mul, le_div_iff₀ hy, mul_comm]
    exact h.2
  · rw [← div_eq_inv_mul, div_le_iff₀ hy, ← div_eq_inv_mul, le_div_iff₀ hx, mul_comm]
    exact h.1

theorem Near.div {k m : Nat} {x y x' y' : ℝ} (h : Near k x y) (h' : Near m x' y') (hx : 0 ≤ x) (hx' : 0 < x')
    (hy' : 0 < y') : Near (k + m) (x / x') (y / y') := by
  rw [div_eq_mul_inv, div_eq_mul_inv]
  exact h.mul (h'.inv hx' hy') hx (inv_nonneg.2 hy'.le)

theorem Near.rpow {k m : Nat} {x y g : ℝ} (h : Near k x y) (hx : 0 < x) (hy : 0 < y) (hg : 0 < g) (hm : g * k ≤ m) :
    Near m (x ^ g) (y ^ g) := by
  have key : ∀ {x y : ℝ}, 0 < x → 0 < y → x * (1 - uu) ^ k ≤ y → x ^ g * (1 - uu) ^ m ≤ y ^ g := by
    intro x y hx hy h
    have h1 : (1 - uu) ^ m ≤ ((1 - uu) ^ k) ^ g := by
      rw [← Real.rpow_natCast, ← Real.rpow_natCast, ← Real.rpow_mul one_sub_pos.le]
      exact Real.rpow_le_rpow_of_exponent_ge one_sub_pos (by have := uu_pos; linarith) (by rw [mul_comm]; exact hm)
    calc x ^ g * (1 - uu) ^ m ≤ x ^ g * ((1 - uu) ^ k) ^ g := mul_le_mul_of_nonneg_left h1 (Real.rpow_nonneg hx.le _)
      _ = (x * (1 - uu) ^ k) ^ g := (Real.mul_rpow hx.le (pow_sub_pos k).le).symm
      _ ≤ y ^ g := Real.rpow_le_rpow (mul_pos hx (pow_sub_pos k)).le h hg.le
  exact ⟨key hx hy h.1, key hy hx h.2⟩

/-- `y` is a double between `2 ^ -p` and `2 ^ q`, and the positive number `x` up to `k` roundings. -/
def Ok (ω : Platform) (p q k : Nat) (x y : ℝ) : Prop :=
  Rep (.binary64 ω) y ∧ (2 : ℝ) ^ (-(p : ℤ)) ≤ y ∧ y ≤ 2 ^ (q : ℤ) ∧ Near k x y ∧ 0 < x

namespace Ok
variable {p q k p' q' k' : Nat} {x y x' y' : ℝ}

theorem pos (h : Ok ω p q k x y) : 0 < y := (p2_pos _).trans_le h.2.1

theorem mono (h : Ok ω p q k x y) (hp : p ≤ p') (hq : q ≤ q') (hk : k ≤ k') : Ok ω p' q' k' x y :=
  ⟨h.1, (p2_le (by omega)).trans h.2.1, h.2.2.1.trans (p2_le (by omega)), h.2.2.2.1.mono hk h.2.2.2.2.le h.pos.le, h.2.2.2.2⟩

/-- One rounding. -/
theorem rnd {z : ℝ} (h1 : (2 : ℝ) ^ (-(p : ℤ)) ≤ z) (h2 : z ≤ 2 ^ (q : ℤ)) (hn : Near k x z) (hx : 0 < x)
    (hp : p ≤ 1022) (hq : q ≤ 970) : ∃ y, (Rounding.binary64 ω).rnd z = .fin y ∧ Ok ω p q (k + 1) x y := by
  obtain ⟨y, hy, -, yn, -, -⟩ := near_rnd (ω := ω) hp (.inr h1) (rep64_pow (e := q) (by omega) (by omega)) h2
    (by rw [big]; exact p2_le (by omega))
  obtain ⟨y', hy', yr, y1, y2⟩ := rnd_between (R := .binary64 ω) (rep64_pow (e := -(p : ℤ)) (by omega) (by omega))
    (rep64_pow (e := q) (by omega) (by omega)) h1 h2
  obtain rfl : y = y' := by rw [hy] at hy'; injection hy'
  exact ⟨y, hy, yr, y1, y2, hn.trans yn, hx⟩

theorem mul (h : Ok ω p q k x y) (h' : Ok ω p' q' k' x' y') (hp : p + p' ≤ 1022) (hq : q + q' ≤ 970) :
    ∃ z, (FP.fin y *. FP.fin y' : FP (.binary64 ω)) = FP.fin z ∧ Ok ω (p + p') (q + q') (k + k' + 1) (x * x') z := by
  obtain ⟨z, hz, ok⟩ := rnd (ω := ω) (p := p + p') (q := q + q') (z := y * y')
    (by
      rw [show (-((p + p' : Nat) : ℤ)) = -(p : ℤ) + -(p' : ℤ) by push_cast; ring, ← p2_add]
      exact mul_le_mul h.2.1 h'.2.1 (p2_pos _).le h.pos.le)
    (by
      rw [show ((q + q' : Nat) : ℤ) = (q : ℤ) + (q' : ℤ) by push_cast; ring, ← p2_add]
      exact mul_le_mul h.2.2.1 h'.2.2.1 h'.pos.le (p2_pos _).le)
    (h.2.2.2.1.mul h'.2.2.2.1 h.2.2.2.2.le h'.pos.le) (mul_pos h.2.2.2.2 h'.2.2.2.2) hp hq
  exact ⟨z, by rw [FP.mul_fin]; exact hz, ok⟩

theorem div_le (h : Ok ω p q k x y) (h' : Ok ω p' q' k' x' y') {Q : Nat} (hle : y / y' ≤ 2 ^ (Q : ℤ)) (hp : p + q' ≤ 1022)
    (hQ : Q ≤ 970) :
    ∃ z, (FP.fin y /. FP.fin y' : FP (.binary64 ω)) = FP.fin z ∧ Ok ω (p + q') Q (k + k' + 1) (x / x') z := by
  obtain ⟨z, hz, ok⟩ := rnd (ω := ω) (p := p + q') (q := Q) (z := y / y')
    (by
      rw [le_div_iff₀ h'.pos]
      calc (2 : ℝ) ^ (-((p + q' : Nat) : ℤ)) * y' ≤ 2 ^ (-((p + q' : Nat) : ℤ)) * 2 ^ (q' : ℤ) :=
            mul_le_mul_of_nonneg_left h'.2.2.1 (p2_pos _).le
        _ = 2 ^ (-(p : ℤ)) := by rw [p2_add]; congr 1; push_cast; ring
        _ ≤ y := h.2.1)
    hle (h.2.2.2.1.div h'.2.2.2.1 h.2.2.2.2.le h'.2.2.2.2 h'.pos) (div_pos h.2.2.2.2 h'.2.2.2.2) hp hQ
  exact ⟨z, by rw [FP.div_fin _ h'.pos.ne']; exact hz, ok⟩

theorem div (h : Ok ω p q k x y) (h' : Ok ω p' q' k' x' y') (hp : p + q' ≤ 1022) (hq : q + p' ≤ 970) :
    ∃ z, (FP.fin y /. FP.fin y' : FP (.binary64 ω)) = FP.fin z ∧ Ok ω (p + q') (q + p') (k + k' + 1) (x / x') z := by
  refine h.div_le h' ?_ hp hq
  rw [div_le_iff₀ h'.pos]
  calc y ≤ 2 ^ (q : ℤ) := h.2.2.1
    _ = 2 ^ ((q + p' : Nat) : ℤ) * 2 ^ (-(p' : ℤ)) := by rw [p2_add]; congr 1; push_cast; ring
    _ ≤ _ := mul_le_mul_of_nonneg_left h'.2.1 (p2_pos _).le

/-- Multiplication by 1 is exact. -/
theorem one_mul (h : Ok ω p q k x y) : (FP.fin 1 *. FP.fin y : FP (.binary64 ω)) = FP.fin y := by
  rw [FP.mul_fin, _root_.one_mul]
  exact h.1

/-- A number of things. -/
theorem count {n : Nat} (h1 : 1 ≤ n) (h2 : n ≤ 2 ^ 20) : Ok ω 0 20 0 (n : ℝ) (n : ℝ) := by
  have h1' : (1 : ℝ) ≤ n := by exact_mod_cast h1
  refine ⟨rep64_nat (h2.trans (by norm_num)), by simpa using h1', ?_, Near.refl _, by linarith⟩
  exact_mod_cast h2

/-- A power with a moderate exponent. -/
theorem pow {g : ℝ} (h0 : 0 < g) (h1 : g ≤ 3 / 2) (h : Ok ω p q k x y) {P Q m : Nat} (hP : 3 * p ≤ 2 * P) (hQ : 3 * q ≤ 2 * Q)
    (hP' : P ≤ 1021) (hQ' : Q ≤ 970) (hm : g * k ≤ m) :
    ∃ z, (Arith.pow (FP.fin y) (FP.fin g) : FP (.binary64 ω)) = FP.fin z ∧ Ok ω P Q (m + 2) (x ^ g) z := by
  have hy := h.pos
  have hPr : (3 : ℝ) * p ≤ 2 * P := by exact_mod_cast hP
  have hQr : (3 : ℝ) * q ≤ 2 * Q := by exact_mod_cast hQ
  have low : (2 : ℝ) ^ (-(P : ℤ)) ≤ y ^ g := by
    rcases le_total 1 y with h' | h'
    · exact (zpow_le_one_of_nonpos₀ one_le_two (by omega)).trans (Real.one_le_rpow h' h0.le)
    · calc (2 : ℝ) ^ (-(P : ℤ)) = 2 ^ (-(P : ℝ)) := by rw [← Real.rpow_intCast]; push_cast; rfl
        _ ≤ 2 ^ ((-(p : ℝ)) * (3 / 2)) := Real.rpow_le_rpow_of_exponent_le one_le_two (by linarith)
        _ = ((2 : ℝ) ^ (-(p : ℝ))) ^ ((3 : ℝ) / 2) := Real.rpow_mul two_pos.le _ _
        _ = ((2 : ℝ) ^ (-(p : ℤ))) ^ ((3 : ℝ) / 2) := by rw [← Real.rpow_intCast]; push_cast; rfl
        _ ≤ y ^ ((3 : ℝ) / 2) := Real.rpow_le_rpow (p2_pos _).le h.2.1 (by norm_num)
        _ ≤ y ^ g := Real.rpow_le_rpow_of_exponent_ge hy h' h1
  have high : y ^ g ≤ (2 : ℝ) ^ (Q : ℤ) := by
    rcases le_total 1 y with h' | h'
    · calc y ^ g ≤ y ^ ((3 : ℝ) / 2) := Real.rpow_le_rpow_of_exponent_le h' h1
        _ ≤ ((2 : ℝ) ^ (q : ℤ)) ^ ((3 : ℝ) / 2) := Real.rpow_le_rpow hy.le h.2.2.1 (by norm_num)
        _ = ((2 : ℝ) ^ (q : ℝ)) ^ ((3 : ℝ) / 2) := by rw [← Real.rpow_intCast]; push_cast; rfl
        _ = 2 ^ ((q : ℝ) * (3 / 2)) := (Real.rpow_mul two_pos.le _ _).symm
        _ ≤ 2 ^ (Q : ℝ) := Real.rpow_le_rpow_of_exponent_le one_le_two (by linarith)
        _ = (2 : ℝ) ^ (Q : ℤ) := by rw [← Real.rpow_intCast]; push_cast; rfl
    · exact (Real.rpow_le_one hy.le h' h0.le).trans (one_le_zpow₀ one_le_two (by omega))
  obtain ⟨z, hz, -, zn, -, -⟩ := near_lib (ω := ω) hP' (.inr low) (rep64_pow (e := Q) (by omega) (by omega)) high
    (by
      rw [big, show (2 : ℝ) * 2 ^ (Q : ℤ) = 2 ^ ((Q : ℤ) + 1) by rw [zpow_add_one₀ two_ne_zero]; ring]
      exact p2_le (by omega)) (ω.powErr_le y g)
  obtain ⟨z', hz', zr, z1, z2⟩ := faithful_between ((Rounding.binary64 ω).pow_faithful y g)
    (rep64_pow (e := -(P : ℤ)) (by omega) (by omega)) (rep64_pow (e := Q) (by omega) (by omega)) low high
  obtain rfl : z = z' := by
    have : FNum.fin z = FNum.fin z' := hz.symm.trans hz'
    injection this
  refine ⟨z, ?_, zr, z1, z2, (h.2.2.2.1.rpow h.2.2.2.2 hy h0 hm).trans zn, Real.rpow_pos_of_pos h.2.2.2.2 g⟩
  show FNum.pow (.binary64 ω) (.fin y) (.fin g) = .fin z
  simp only [FNum.pow, FNum.powFin]
  rw [if_pos hy]
  exact hz

end Ok

/-- Numbers added one after the other. -/
theorem ok_foldl {β : Type} {p q k n : Nat} (hp : p ≤ 1022) (hq : q + 20 ≤ 970) {F G : β → ℝ} (L : List β)
    (hlen : L.length ≤ 2 ^ 20) (hn : L.length ≤ n) (hne : L ≠ []) (h : ∀ b ∈ L, Ok ω p q k (F b) (G b)) :
    ∃ y, L.foldl (fun acc b => acc +. (FP.fin (G b) : FP (.binary64 ω))) (FP.fin 0) = FP.fin y ∧
      Ok ω p (q + 20) (k + n) (L.map F).sum y ∧ ∀ b ∈ L, G b ≤ y := by
  have hrep : ∀ j : Nat, j ≤ L.length → Rep (.binary64 ω) (j * 2 ^ (q : ℤ)) ∧ (j : ℝ) * 2 ^ (q : ℤ) ≤ 2 ^ ((q + 20 : Nat) : ℤ) := by
    intro j hj
    have h20 := hj.trans hlen
    refine ⟨rep64_mul (h20.trans (by norm_num)) (by omega) (by omega), ?_⟩
    have : (j : ℝ) ≤ 2 ^ (20 : ℤ) := by exact_mod_cast h20
    calc (j : ℝ) * 2 ^ (q : ℤ) ≤ 2 ^ (20 : ℤ) * 2 ^ (q : ℤ) := mul_le_mul_of_nonneg_right this (p2_pos _).le
      _ = _ := by rw [p2_add]; congr 1; push_cast; ring
  have hbig : ∀ j : Nat, j ≤ L.length → (j : ℝ) * 2 ^ (q : ℤ) ≤ big := fun j hj => (hrep j hj).2.trans (by
    rw [big]; exact p2_le (by omega))
  have key : ∀ (L' : List β) (j : Nat) (A a : ℝ), j + L'.length = L.length → (∀ b ∈ L', b ∈ L) → Rep (.binary64 ω) a →
      Away p a → a ≤ j * 2 ^ (q : ℤ) → Near (k + j) A a → 0 ≤ A →
      ∃ y, L'.foldl (fun acc b => acc +. (FP.fin (G b) : FP (.binary64 ω))) (FP.fin a) = FP.fin y ∧
        Rep (.binary64 ω) y ∧ Away p y ∧ y ≤ L.length * 2 ^ (q : ℤ) ∧ Near (k + L.length) (A + (L'.map F).sum) y ∧
        a ≤ y ∧ ∀ b ∈ L', G b ≤ y := by
    intro L'
    induction L' with
    | nil =>
      intro j A a hj _ ar aw ab an _
      simp only [List.length_nil, add_zero] at hj
      subst hj
      exact ⟨a, rfl, ar, aw, ab, by simpa using an, le_rfl, by simp⟩
    | cons b L' ih =>
      intro j A a hj hL ar aw ab an hA
      simp only [List.length_cons] at hj
      have hb := h b (hL b (by simp))
      have hj1 : j + 1 ≤ L.length := by omega
      have hle : a + G b ≤ (j + 1 : Nat) * 2 ^ (q : ℤ) := by
        have := hb.2.2.1
        push_cast
        linarith
      obtain ⟨y, hy, yr, yn, yw, yb⟩ := near_rnd (ω := ω) hp (aw.add (.inr hb.2.1)) (hrep _ hj1).1 hle (hbig _ hj1)
      obtain ⟨y1, hy1, -, g1, -⟩ := rnd_between (R := .binary64 ω) hb.1 (hrep _ hj1).1
        (by linarith [aw.nonneg] : G b ≤ a + G b) hle
      obtain rfl : y = y1 := by rw [hy] at hy1; injection hy1
      obtain ⟨y2, hy2, -, g2, -⟩ := rnd_between (R := .binary64 ω) ar (hrep _ hj1).1
        (by linarith [hb.pos] : a ≤ a + G b) hle
      obtain rfl : y = y2 := by rw [hy] at hy2; injection hy2
      have hn1 : Near (k + (j + 1)) (A + F b) y := by
        have h1 : Near (k + j) (F b) (G b) := hb.2.2.2.1.mono (by omega) hb.2.2.2.2.le hb.pos.le
        exact (an.add h1).trans yn
      obtain ⟨z, h1, h2, h3, h4, h5, h6, h7⟩ := ih (j + 1) (A + F b) y (by omega) (fun c hc => hL c (by simp [hc])) yr yw yb
        hn1 (by linarith [hb.2.2.2.2])
      refine ⟨z, ?_, h2, h3, h4, ?_, g2.trans h6, fun c hc => ?_⟩
      · rw [List.foldl_cons, FP.add_fin]
        exact (congrArg (fun q => List.foldl _ q L') hy).trans h1
      · rw [List.map_cons, List.sum_cons, ← add_assoc]; exact h5
      · rcases List.mem_cons.1 hc with rfl | hc
        · exact g1.trans h6
        · exact h7 c hc
  obtain ⟨y, h1, h2, -, h4, h5, -, h7⟩ := key L 0 0 0 (by omega) (fun _ h => h) rep_zero (.inl rfl) (by simp)
    (by simp [Near]) le_rfl
  obtain ⟨b0, hb0⟩ := List.exists_mem_of_ne_nil _ hne
  have hlow := (h b0 hb0).2.1.trans (h7 b0 hb0)
  have hsum : 0 < (L.map F).sum := by
    have h0 : ∀ x ∈ L.map F, 0 ≤ x := by
      intro x hx
      obtain ⟨b, hb, rfl⟩ := List.mem_map.1 hx
      exact (h b hb).2.2.2.2.le
    exact lt_of_lt_of_le (h b0 hb0).2.2.2.2 (List.single_le_sum h0 _ (List.mem_map_of_mem hb0))
  refine ⟨y, h1, ⟨h2, hlow, h4.trans (hrep _ le_rfl).2, ?_, hsum⟩, h7⟩
  rw [zero_add] at h5
  exact h5.mono (by omega) hsum.le ((p2_pos _).le.trans hlow)

/-- Rows of a matrix. -/
theorem ok_row {B : Type} [DecidableEq B] {bs : List B} {g : B → Option (FP (.binary64 ω))} {F : B → FP (.binary64 ω)} (P : B → Prop)
    [DecidablePred P] {G : B → FP (.binary64 ω)} (hg : ∀ b ∈ bs, g b = if P b then some (G b) else none) {x H : B → ℝ}
    {p q k n : Nat} (hp : p ≤ 1022) (hq : q + 20 ≤ 970) (hlen : bs.length ≤ 2 ^ 20) (hn : (bs.filter P).toFinset.card ≤ n)
    (hnd : bs.Nodup) (hne : (bs.filter P).toFinset.Nonempty)
    (h : ∀ b ∈ bs, P b → (G b *. F b : FP (.binary64 ω)) = FP.fin (H b) ∧ Ok ω p q k (x b) (H b)) :
    ∃ y, rowDot bs g F = FP.fin y ∧ Ok ω p (q + 20) (k + n) (∑ b ∈ (bs.filter P).toFinset, x b) y ∧
      ∀ b ∈ bs, P b → H b ≤ y := by
  have hmem : ∀ b ∈ bs.filter P, b ∈ bs ∧ P b := fun b hb => by simpa using List.mem_filter.1 hb
  rw [List.toFinset_card_of_nodup (hnd.filter _)] at hn
  obtain ⟨y, h1, h2, h3⟩ := ok_foldl (ω := ω) hp hq (F := x) (G := H) (bs.filter P) ((List.length_filter_le _ _).trans hlen) hn
    (by rintro e; rw [e] at hne; simp at hne) (fun b hb => (h b (hmem b hb).1 (hmem b hb).2).2)
  refine ⟨y, ?_, ?_, fun b hb hP => h3 b (List.mem_filter.2 ⟨hb, by simpa using hP⟩)⟩
  · rw [rowDot_entries P hg fun b hb hp => (h b hb hp).1]
    exact h1
  · rwa [List.sum_toFinset x (hnd.filter _)]

theorem choose_on {A : Type} {as : List A} {P : A → ℝ → Prop} (h : ∀ a ∈ as, ∃ y, P a y) : ∃ F : A → ℝ, ∀ a ∈ as, P a (F a) := by
  classical
  exact ⟨fun a => if ha : a ∈ as then (h a ha).choose else 0, fun a ha => by
    simp only [dif_pos ha]; exact (h a ha).choose_spec⟩

section
variable {S V X : Type} [DecidableEq S] [DecidableEq V] [DecidableEq X] (l : List (S × V × X))

/-- The new trust of Investment and PooledInvestment before scaling, and what the claims receive. -/
theorem returns_ok (f : Option (V → X → X → Option (FP (.binary64 ω)))) (hS : (sources l).length ≤ 2 ^ 20)
    (hC : (claims l).length ≤ 2 ^ 20) {a b τ kT kB : Nat} (ha : ∀ s, (claimsOf l s).card ≤ a) (hb : ∀ c, (sourcesOf l c).card ≤ b)
    (hτ : τ ≤ 400) (x : Scores S V X) (T : S → ℝ) (B : V × X → ℝ)
    (hT : ∀ s ∈ sources l, Ok ω τ 20 kT (x.1 s) (T s)) (hB : ∀ c ∈ claims l, Ok ω τ 20 kB (x.2 c) (B c)) :
    ∃ (U : S → ℝ) (H : V × X → ℝ),
      updateTrust (matsOf l f) ((sources l).map fun s => FP.fin (T s)) ((claims l).map fun c => FP.fin (B c)) =
        some ((sources l).map fun s => FP.fin (U s)) ∧
      (matsOf l f).sc.T.mulVec (vzip Arith.div ((sources l).map fun s => FP.fin (U s)) (claimCounts (matsOf l f))) =
        (claims l).map (fun c => FP.fin (H c)) ∧
      (∀ s ∈ sources l, Ok ω (2 * τ + 60) (τ + 80) (2 * kT + kB + 5 + a + b) (regained l x s) (U s)) ∧
      ∀ c ∈ claims l, Ok ω (2 * τ + 80) (τ + 100) (2 * kT + kB + 6 + a + 2 * b) (invested l (regained l x) c) (H c) := by
  have hcount : ∀ s ∈ sources l, Ok ω 0 20 0 (nClaims l s) ((claimsOf l s).card : ℝ) := fun s hs =>
    Ok.count (claimsOf_nonempty l hs).card_pos ((card_claimsOf_le l s).trans hC)
  -- amounts
  obtain ⟨am, ham⟩ := choose_on fun s hs => (hT s hs).div (hcount s hs) (by omega) (by omega)
  -- the amount invested in a claim
  obtain ⟨inv, hinv⟩ := choose_on (as := claims l)
    (P := fun c y => rowDot (sources l) (fun s => scL l s c) (fun s => (FP.fin (am s) : FP (.binary64 ω))) = FP.fin y ∧
      Ok ω (τ + 20) 40 (kT + 1 + b) (invested l x.1 c) y) (fun c hc => by
    have hne : ((sources l).filter fun s => decide ((s, c) ∈ recorded l)).toFinset.Nonempty := by
      rw [filter_sources_toFinset]; exact sourcesOf_nonempty l hc
    obtain ⟨y, h1, h2, -⟩ := ok_row (ω := ω) (F := fun s => FP.fin (am s)) (fun s => (s, c) ∈ recorded l) (fun s _ => scL_fp l s c)
      (x := fun s => x.1 s / nClaims l s) (H := am) (p := τ + 20) (q := 20) (k := kT + 1) (n := b) (by omega) (by omega) hS
      (by rw [filter_sources_toFinset]; exact hb c) (nodup_sources l) hne
      (fun s hs hr => ⟨((ham s hs).2).one_mul, (ham s hs).2⟩)
    rw [filter_sources_toFinset] at h2
    exact ⟨y, h1, h2⟩)
  -- its inverse
  have hone : Ok ω 0 0 0 (1 : ℝ) 1 := ⟨rep_one, by simp, by simp, Near.refl _, one_pos⟩
  obtain ⟨w, hw⟩ := choose_on fun c hc => hone.div (hinv c hc).2 (by omega) (by omega)
  -- what one unit invested in a claim returns
  obtain ⟨q, hq⟩ := choose_on fun c hc => (hw c hc).2.mul (hB c hc) (by omega) (by omega)
  -- what a source receives per unit
  obtain ⟨r, hr⟩ := choose_on (as := sources l)
    (P := fun s y => rowDot (claims l) (fun c => (scL l s c).map (· *. (Arith.ofNat 1 /. FP.fin (inv c))))
        (fun c => (FP.fin (B c) : FP (.binary64 ω))) = FP.fin y ∧
      Ok ω (τ + 40) (τ + 60) (kT + kB + 3 + b + a) (∑ c ∈ claimsOf l s, 1 / invested l x.1 c * x.2 c) y) (fun s hs => by
    have hne : ((claims l).filter fun c => decide ((s, c) ∈ recorded l)).toFinset.Nonempty := by
      rw [filter_claims_toFinset]; exact claimsOf_nonempty l hs
    obtain ⟨y, h1, h2, -⟩ := ok_row (ω := ω) (bs := claims l) (F := fun c => FP.fin (B c))
      (g := fun c => (scL l s c).map (· *. (Arith.ofNat 1 /. FP.fin (inv c)))) (fun c => (s, c) ∈ recorded l)
      (G := fun c => FP.fin 1 *. (Arith.ofNat 1 /. FP.fin (inv c)))
      (fun c _ => by
        rw [scL_fp]
        split <;> rfl)
      (x := fun c => 1 / invested l x.1 c * x.2 c) (H := q) (p := τ + 40) (q := τ + 40) (k := kT + kB + 3 + b) (n := a)
      (by omega) (by omega) hC (by rw [filter_claims_toFinset]; exact ha s) (nodup_claims l) hne
      (fun c hc hr => by
        refine ⟨?_, (hq c hc).2.mono (by omega) (by omega) (by omega)⟩
        rw [FP.one_eq, (hw c hc).1, (hw c hc).2.one_mul]
        exact (hq c hc).1)
    rw [filter_claims_toFinset] at h2
    exact ⟨y, h1, h2.mono (by omega) (by omega) (by omega)⟩)
  obtain ⟨U, hU⟩ := choose_on fun s hs => (ham s hs).2.mul (hr s hs).2 (by omega) (by omega)
  have hU' : ∀ s ∈ sources l, Ok ω (2 * τ + 60) (τ + 80) (2 * kT + kB + 5 + a + b) (regained l x s) (U s) := by
    intro s hs
    have := (hU s hs).2
    have e : x.1 s / nClaims l s * ∑ c ∈ claimsOf l s, 1 / invested l x.1 c * x.2 c = regained l x s := by
      rw [Finset.mul_sum]
      exact Finset.sum_congr rfl fun c _ => by ring
    rw [e] at this
    exact this.mono (by omega) (by omega) (by omega)
  obtain ⟨z, hz⟩ := choose_on fun s hs => (hU' s hs).div (hcount s hs) (by omega) (by omega)
  obtain ⟨H, hH⟩ := choose_on (as := claims l)
    (P := fun c y => rowDot (sources l) (fun s => scL l s c) (fun s => (FP.fin (z s) : FP (.binary64 ω))) = FP.fin y ∧
      Ok ω (2 * τ + 80) (τ + 100) (2 * kT + kB + 6 + a + 2 * b) (invested l (regained l x) c) y) (fun c hc => by
    have hne : ((sources l).filter fun s => decide ((s, c) ∈ recorded l)).toFinset.Nonempty := by
      rw [filter_sources_toFinset]; exact sourcesOf_nonempty l hc
    obtain ⟨y, h1, h2, -⟩ := ok_row (ω := ω) (F := fun s => FP.fin (z s)) (fun s => (s, c) ∈ recorded l) (fun s _ => scL_fp l s c)
      (x := fun s => regained l x s / nClaims l s) (H := z) (p := 2 * τ + 80) (q := τ + 80) (k := 2 * kT + kB + 6 + a + b) (n := b)
      (by omega) (by omega) hS
      (by rw [filter_sources_toFinset]; exact hb c) (nodup_sources l) hne
      (fun s hs hr => ⟨((hz s hs).2).one_mul, (hz s hs).2.mono (by omega) (by omega) (by omega)⟩)
    rw [filter_sources_toFinset] at h2
    exact ⟨y, h1, h2.mono (by omega) (by omega) (by omega)⟩)
  have hCC := claimCounts_fp l f (C31_binary64 (ω := ω)) (hC.trans (by norm_num))
  refine ⟨U, H, ?_, ?_, hU', fun c hc => (hH c hc).2⟩
  · have e1 : vzip Arith.div ((sources l).map fun s => (FP.fin (T s) : FP (.binary64 ω))) (claimCounts (matsOf l f)) =
        (sources l).map fun s => FP.fin (am s) := by
      unfold vzip
      rw [hCC, List.zipWith_map, List.zipWith_self]
      apply List.map_congr_left
      intro s hs
      exact (ham s hs).1
    have e2 : (matsOf l f).sc.T.mulVec ((sources l).map fun s => (FP.fin (am s) : FP (.binary64 ω))) =
        (claims l).map fun c => FP.fin (inv c) := by
      rw [scT_eq_ofRel, Mat.mulVec_ofRel]
      apply List.map_congr_left
      intro c hc
      exact (hinv c hc).1
    unfold updateTrust
    rw [e1]
    dsimp only
    rw [e2, if_neg]
    · rw [List.map_map, sc_eq_ofRel, Mat.scaleCols_ofRel, Mat.mulVec_ofRel]
      unfold vzip
      rw [List.zipWith_map, List.zipWith_self]
      congr 1
      apply List.map_congr_left
      intro s hs
      refine Eq.trans ?_ (hU s hs).1
      exact congrArg (fun y => (FP.fin (am s) *. y : FP (.binary64 ω))) (hr s hs).1
    · simp only [List.any_map, List.any_eq_true, not_exists, not_and, Function.comp_apply, Bool.not_eq_true]
      intro c hc
      rw [FP.zero_eq]
      show FNum.eq (.fin (inv c)) (.fin 0) = false
      refine decide_eq_false fun h' => (hinv c hc).2.pos.ne' ?_
      simpa [FNum.toEReal] using h'
  · have e1 : vzip Arith.div ((sources l).map fun s => (FP.fin (U s) : FP (.binary64 ω))) (claimCounts (matsOf l f)) =
        (sources l).map fun s => FP.fin (z s) := by
      unfold vzip
      rw [hCC, List.zipWith_map, List.zipWith_self]
      apply List.map_congr_left
      intro s hs
      exact (hz s hs).1
    rw [e1, scT_eq_ofRel, Mat.mulVec_ofRel]
    apply List.map_congr_left
    intro c hc
    exact (hH c hc).1


theorem invested_mul (c : ℝ) (t : S → ℝ) (d : V × X) : invested l (fun s => c * t s) d = c * invested l t d := by
  unfold invested
  rw [Finset.mul_sum]
  exact Finset.sum_congr rfl fun s _ => by ring

theorem regained_mul {ct : ℝ} (hct : ct ≠ 0) (cb : ℝ) (x : Scores S V X) (s : S) :
    regained l ((fun s => ct * x.1 s), (fun c => cb * x.2 c)) s = cb * regained l x s := by
  unfold regained
  rw [Finset.mul_sum]
  refine Finset.sum_congr rfl fun c _ => ?_
  simp only [invested_mul]
  rw [mul_div_assoc ct, mul_div_mul_left _ _ hct]
  ring

/-- The scores before an iteration: with rounding (`t`, `b`) and without (`x`). -/
def InvIn (ω : Platform) (τ kT kB : Nat) (x : Scores S V X) (t b : Vec (FP (.binary64 ω))) : Prop :=
  ∃ (T : S → ℝ) (B : V × X → ℝ) (ct cb : ℝ), t = (sources l).map (fun s => FP.fin (T s)) ∧ b = (claims l).map (fun c => FP.fin (B c)) ∧
    0 < ct ∧ 0 < cb ∧ (∀ s ∈ sources l, Ok ω τ 20 kT (ct * x.1 s) (T s)) ∧ ∀ c ∈ claims l, Ok ω τ 20 kB (cb * x.2 c) (B c)

/-- The scores after an iteration. -/
def InvOut (ω : Platform) (kT kB : Nat) (x : Scores S V X) (t b : Vec (FP (.binary64 ω))) : Prop :=
  ∃ (p : Nat) (T : S → ℝ) (B : V × X → ℝ), t = (sources l).map (fun s => FP.fin (T s)) ∧ b = (claims l).map (fun c => FP.fin (B c)) ∧
    Unit1 ω p kT (sources l) x.1 T ∧ Unit1 ω p kB (claims l) x.2 B

theorem acc_of_ok {A : Type} {as : List A} {p q k : Nat} {F G : A → ℝ} {c : ℝ} (hc : 0 < c) (hne : as ≠ [])
    (h : ∀ a ∈ as, Ok ω p q k (c * F a) (G a)) : Acc ω p k (2 ^ q) as F G := by
  obtain ⟨a0, ha0⟩ := List.exists_mem_of_ne_nil _ hne
  refine ⟨fun a ha => ⟨(h a ha).1, .inr (h a ha).2.1, ?_, ?_⟩, ⟨a0, ha0, (h a0 ha0).pos⟩, c, hc, fun a ha => (h a ha).2.2.2.1⟩
  · have := (h a ha).2.2.1
    push_cast
    exact_mod_cast this
  · exact (pos_of_mul_pos_right (h a ha).2.2.2.2 hc.le).le

theorem InvOut.in {τ kT kB : Nat} {x : Scores S V X} {t b : Vec (FP (.binary64 ω))} (h : InvOut l ω kT kB x t b)
    (hT : ∀ y, y ∈ t → ∃ z : ℝ, y = FP.fin z ∧ (2 : ℝ) ^ (-(τ : ℤ)) ≤ z)
    (hB : ∀ y, y ∈ b → ∃ z : ℝ, y = FP.fin z ∧ (2 : ℝ) ^ (-(τ : ℤ)) ≤ z) : InvIn l ω τ kT kB x t b := by
  obtain ⟨p, T, B, rfl, rfl, hT1, hB1⟩ := h
  obtain ⟨ct, hct, hnt⟩ := hT1.1.2.2
  obtain ⟨cb, hcb, hnb⟩ := hB1.1.2.2
  have key : ∀ {A : Type} {as : List A} {k : Nat} {F G : A → ℝ} {c : ℝ}, Unit1 ω p k as F G → 0 < c →
      (∀ a ∈ as, Near k (c * F a) (G a)) →
      (∀ y : FP (.binary64 ω), y ∈ as.map (fun a => FP.fin (G a)) → ∃ z : ℝ, y = FP.fin z ∧ (2 : ℝ) ^ (-(τ : ℤ)) ≤ z) →
      ∀ a ∈ as, Ok ω τ 20 k (c * F a) (G a) := by
    intro A as k F G c hu hc hn hz a ha
    obtain ⟨z, h1, h2⟩ := hz _ (List.mem_map_of_mem ha)
    have h1 := FP.fin_inj.1 h1
    subst h1
    refine ⟨(hu.1.1 a ha).1, h2, ?_, hn a ha, mul_pos hc (hu.1.pos ha ((p2_pos _).trans_le h2))⟩
    have := (hu.1.1 a ha).2.2.1
    rw [Nat.cast_one] at this
    exact this.trans (one_le_zpow₀ one_le_two (by norm_num))
  exact ⟨T, B, ct, cb, rfl, rfl, hct, hcb, key hT1 hct hnt hT, key hB1 hcb hnb hB⟩

/-- One iteration of Investment. -/
theorem invest_out (f : Option (V → X → X → Option (FP (.binary64 ω)))) (hl : l ≠ []) (hS : (sources l).length ≤ 2 ^ 20)
    (hC : (claims l).length ≤ 2 ^ 20) {a b kT kB m : Nat} (ha : ∀ s, (claimsOf l s).card ≤ a) (hb : ∀ c, (sourcesOf l c).card ≤ b)
    {g : ℝ} (h0 : 0 < g) (h1 : g ≤ 3 / 2) (hm : g * (2 * kT + kB + 6 + a + 2 * b : Nat) ≤ m)
    {x : Scores S V X} {t bl : Vec (FP (.binary64 ω))} (h : InvIn l ω 160 kT kB x t bl) :
    ∃ s, investBody (FP.fin g) (matsOf l f) t bl = .ok (some s) ∧
      InvOut l ω (2 * kT + kB + 6 + a + b) (m + 3) (investStep l g x) s.trust s.belief := by
  obtain ⟨T, B, ct, cb, rfl, rfl, hct, hcb, hT, hB⟩ := h
  obtain ⟨U, H, e1, e2, hU, hH⟩ := returns_ok (ω := ω) l f hS hC ha hb (by norm_num)
    ((fun s => ct * x.1 s), (fun c => cb * x.2 c)) T B hT hB
  simp only [regained_mul l hct.ne', invested_mul] at hU hH
  have hpos : ∀ c ∈ claims l, 0 < invested l (regained l x) c := fun c hc => by
    have := (hH c hc).2.2.2.2
    rw [show invested l (regained l ((fun s => ct * x.1 s), fun c => cb * x.2 c)) c = cb * invested l (regained l x) c by
      rw [← invested_mul]; congr 1; funext s; exact regained_mul l hct.ne' cb x s] at this
    exact pos_of_mul_pos_right this hcb.le
  have hinv : ∀ c, invested l (regained l ((fun s => ct * x.1 s), fun c => cb * x.2 c)) c = cb * invested l (regained l x) c :=
    fun c => by rw [← invested_mul]; congr 1; funext s; exact regained_mul l hct.ne' cb x s
  obtain ⟨z, hz⟩ := choose_on fun c hc => (hH c hc).pow h0 h1 (P := 600) (Q := 390) (by norm_num) (by norm_num)
    (by norm_num) (by norm_num) hm
  have hUacc := acc_of_ok (ω := ω) hcb (sources_ne hl) hU
  have hcg : 0 < cb ^ g := Real.rpow_pos_of_pos hcb g
  have hzacc : Acc ω 600 (m + 2) (2 ^ 390) (claims l) (fun c => invested l (regained l x) c ^ g) z := by
    refine acc_of_ok (ω := ω) hcg (claims_ne hl) fun c hc => ?_
    have := (hz c hc).2
    rw [hinv, Real.mul_rpow hcb.le (hpos c hc).le] at this
    exact this
  obtain ⟨T1, n1, hT1, -⟩ := hUacc.unit (w := 240) le_rfl (by norm_num)
  obtain ⟨B1, m1, hB1, -⟩ := hzacc.unit (w := 390) le_rfl (by norm_num)
  have e3 : ((claims l).map fun c => (FP.fin (H c) : FP (.binary64 ω))).map (Arith.pow · (FP.fin g)) =
      (claims l).map fun c => FP.fin (z c) := by
    rw [List.map_map]
    exact List.map_congr_left fun c hc => (hz c hc).1
  refine ⟨⟨(sources l).map fun s => FP.fin (T1 s), (sources l).map fun s => FP.fin (T s),
    (sources l).map fun s => FP.fin (T1 s), (claims l).map fun c => FP.fin (B1 c)⟩, ?_, 990, T1, B1, rfl, rfl, ?_, ?_⟩
  · unfold investBody
    rw [e1]
    dsimp only
    rw [e2, e3, n1, m1]
    rfl
  · rw [sources_toFinset] at hT1
    exact hT1.mono (by norm_num) (by omega)
  · rw [claims_toFinset] at hB1
    exact hB1.mono (by norm_num) (by omega)

theorem filter_rivals_toFinset (c : V × X) : ((claims l).filter fun d => decide (c.1 = d.1)).toFinset = rivals l c := by
  ext d
  rw [List.mem_toFinset, List.mem_filter, mem_rivals l]
  simp

/-- One iteration of PooledInvestment. -/
theorem pooled_out (f : Option (V → X → X → Option (FP (.binary64 ω)))) (hl : l ≠ []) (hS : (sources l).length ≤ 2 ^ 20)
    (hC : (claims l).length ≤ 2 ^ 20) {a b v kT kB m : Nat} (ha : ∀ s, (claimsOf l s).card ≤ a) (hb : ∀ c, (sourcesOf l c).card ≤ b)
    (hv : ∀ c, (rivals l c).card ≤ v)
    {g : ℝ} (h0 : 0 < g) (h1 : g ≤ 3 / 2) (hm : g * (2 * kT + kB + 6 + a + 2 * b : Nat) ≤ m)
    {x : Scores S V X} {t bl : Vec (FP (.binary64 ω))} (h : InvIn l ω 64 kT kB x t bl) :
    ∃ s, pooledBody (FP.fin g) (matsOf l f) t bl = .ok (some s) ∧
      InvOut l ω (2 * kT + kB + 6 + a + b) ((2 * kT + kB + 6 + a + 2 * b) + 2 * m + 7 + v) (pooledStep l g x) s.trust s.belief := by
  obtain ⟨T, B, ct, cb, rfl, rfl, hct, hcb, hT, hB⟩ := h
  obtain ⟨U, H, e1, e2, hU, hH⟩ := returns_ok (ω := ω) l f hS hC ha hb (by norm_num)
    ((fun s => ct * x.1 s), (fun c => cb * x.2 c)) T B hT hB
  have hinv : ∀ c, invested l (regained l ((fun s => ct * x.1 s), fun c => cb * x.2 c)) c = cb * invested l (regained l x) c :=
    fun c => by rw [← invested_mul]; congr 1; funext s; exact regained_mul l hct.ne' cb x s
  simp only [regained_mul l hct.ne'] at hU
  simp only [hinv] at hH
  have hpos : ∀ c ∈ claims l, 0 < invested l (regained l x) c := fun c hc => pos_of_mul_pos_right (hH c hc).2.2.2.2 hcb.le
  obtain ⟨z, hz⟩ := choose_on fun c hc => (hH c hc).pow h0 h1 (P := 312) (Q := 246) (by norm_num) (by norm_num)
    (by norm_num) (by norm_num) hm
  have hcg : 0 < cb ^ g := Real.rpow_pos_of_pos hcb g
  -- the sum of the returns of a variable
  obtain ⟨y, hy⟩ := choose_on (as := claims l)
    (P := fun c r => rowDot (claims l) (mxL c) (fun c => (FP.fin (z c) : FP (.binary64 ω))) = FP.fin r ∧
      Ok ω 312 266 (m + 2 + v) (∑ d ∈ rivals l c, (cb * invested l (regained l x) d) ^ g) r ∧ z c ≤ r) (fun c hc => by
    have hne : ((claims l).filter fun d => decide (c.1 = d.1)).toFinset.Nonempty := by
      rw [filter_rivals_toFinset]; exact ⟨c, self_mem_rivals l hc⟩
    obtain ⟨r, h1, h2, h3⟩ := ok_row (ω := ω) (bs := claims l) (g := mxL c) (F := fun c => FP.fin (z c)) (fun d => c.1 = d.1)
      (G := fun _ => FP.fin 1) (fun d _ => by simp only [mxL, oneIf, FP.one_eq, decide_eq_true_eq])
      (x := fun d => (cb * invested l (regained l x) d) ^ g) (H := z) (p := 312) (q := 246) (k := m + 2) (n := v)
      (by norm_num) (by norm_num) hC (by rw [filter_rivals_toFinset]; exact hv c) (nodup_claims l) hne
      (fun d hd _ => ⟨(hz d hd).2.one_mul, (hz d hd).2⟩)
    rw [filter_rivals_toFinset] at h2
    exact ⟨r, h1, h2, h3 c hc rfl⟩)
  obtain ⟨q, hq⟩ := choose_on fun c hc => (hz c hc).2.div_le (hy c hc).2.1 (Q := 0)
    (by rw [Nat.cast_zero, zpow_zero]; exact (div_le_one (hy c hc).2.1.pos).2 (hy c hc).2.2) (by norm_num) (by norm_num)
  obtain ⟨b1, hb1⟩ := choose_on fun c hc => (hH c hc).mul (hq c hc).2 (by norm_num) (by norm_num)
  have hUacc := acc_of_ok (ω := ω) hcb (sources_ne hl) hU
  have hbacc : Acc ω 786 (2 * kT + kB + 6 + a + 2 * b + (m + 2 + (m + 2 + v) + 1) + 1) (2 ^ 164) (claims l)
      (fun c => invested l (regained l x) c * (invested l (regained l x) c ^ g / ∑ d ∈ rivals l c, invested l (regained l x) d ^ g)) b1 := by
    refine acc_of_ok (ω := ω) hcb (claims_ne hl) fun c hc => ?_
    have := (hb1 c hc).2
    have e : ∑ d ∈ rivals l c, (cb * invested l (regained l x) d) ^ g =
        cb ^ g * ∑ d ∈ rivals l c, invested l (regained l x) d ^ g := by
      rw [Finset.mul_sum]
      exact Finset.sum_congr rfl fun d hd => Real.mul_rpow hcb.le (hpos d ((mem_rivals l).1 hd).1).le
    rw [e, Real.mul_rpow hcb.le (hpos c hc).le, mul_div_mul_left _ _ hcg.ne', mul_assoc cb] at this
    exact this
  obtain ⟨T1, n1, hT1, -⟩ := hUacc.unit (w := 144) le_rfl (by norm_num)
  obtain ⟨B1, m1, hB1, -⟩ := hbacc.unit (w := 164) le_rfl (by norm_num)
  have e3 : ((claims l).map fun c => (FP.fin (H c) : FP (.binary64 ω))).map (Arith.pow · (FP.fin g)) =
      (claims l).map fun c => FP.fin (z c) := by
    rw [List.map_map]
    exact List.map_congr_left fun c hc => (hz c hc).1
  have e4 : (matsOf l f).mutEx.mulVec ((claims l).map fun c => (FP.fin (z c) : FP (.binary64 ω))) =
      (claims l).map fun c => FP.fin (y c) := by
    rw [mutEx_eq_ofRel, Mat.mulVec_ofRel]
    exact List.map_congr_left fun c hc => (hy c hc).1
  have e5 : vzip Arith.mul ((claims l).map fun c => (FP.fin (H c) : FP (.binary64 ω)))
      (vzip Arith.div ((claims l).map fun c => FP.fin (z c)) ((claims l).map fun c => FP.fin (y c))) =
      (claims l).map fun c => FP.fin (b1 c) := by
    unfold vzip
    rw [List.zipWith_map, List.zipWith_self, List.zipWith_map, List.zipWith_self]
    refine List.map_congr_left fun c hc => ?_
    rw [(hq c hc).1]
    exact (hb1 c hc).1
  refine ⟨⟨(sources l).map fun s => FP.fin (T1 s), (sources l).map fun s => FP.fin (T s),
    (sources l).map fun s => FP.fin (T1 s), (claims l).map fun c => FP.fin (B1 c)⟩, ?_, 1022, T1, B1, rfl, rfl, ?_, ?_⟩
  · unfold pooledBody
    rw [e1]
    dsimp only
    rw [e2, e3, e4, e5, n1, m1]
    rfl
  · rw [sources_toFinset] at hT1
    exact hT1.mono (by norm_num) (by omega)
  · rw [claims_toFinset] at hB1
    exact hB1.mono (by norm_num) (by omega)

end
end TD
