import Verif.Lemmas.Range
import Verif.Lemmas.Binary64
import Verif.Props.Double
import Verif.Lemmas.Algos
/-! Bounds of sums and quotients of doubles. -/

namespace TD
open Spec
attribute [-instance] instBEqProd

section
variable {R : Rounding}

/-- A finite, representable number between the bounds. -/
def Btw (R : Rounding) (a b : ℝ) (x : FP R) : Prop := ∃ y, x = FP.fin y ∧ Rep R y ∧ a ≤ y ∧ y ≤ b

theorem btw_rnd {a b x : ℝ} (ha : Rep R a) (hb : Rep R b) (h1 : a ≤ x) (h2 : x ≤ b) : Btw R a b (R.rnd x) := by
  obtain ⟨y, hy, h⟩ := rnd_between ha hb h1 h2
  exact ⟨y, hy, h⟩

theorem btw_faithful {a b v w : ℝ} (hw : FaithfulTo R.rnd v w) (ha : Rep R a) (hb : Rep R b) (h1 : a ≤ v) (h2 : v ≤ b) :
    Btw R a b (R.rnd w) := by
  obtain ⟨y, hy, h⟩ := faithful_between hw ha hb h1 h2
  exact ⟨y, hy, h⟩

theorem Btw.mono {a b a' b' : ℝ} {x : FP R} (h : Btw R a b x) (h1 : a' ≤ a) (h2 : b ≤ b') : Btw R a' b' x := by
  obtain ⟨y, e, r, l, u⟩ := h
  exact ⟨y, e, r, h1.trans l, u.trans h2⟩

/-- Sums of nonnegative numbers. -/
theorem foldl_btw {β : Type} {K : Nat} {M : ℝ} (hM : ∀ k : Nat, k ≤ K → Rep R (k * M)) (g : β → FP R) (L : List β)
    (hg : ∀ b ∈ L, Btw R 0 M (g b)) (k : Nat) (hk : k + L.length ≤ K) (x : FP R) (hx : Btw R 0 (k * M) x) :
    ∃ y, L.foldl (fun acc b => acc +. g b) x = FP.fin y ∧ Rep R y ∧ (∀ z, x = FP.fin z → z ≤ y) ∧
      y ≤ (k + L.length : Nat) * M ∧ ∀ b ∈ L, ∀ z, g b = FP.fin z → z ≤ y := by
  induction L generalizing k x with
  | nil =>
    obtain ⟨a, rfl, hr, h0, h1⟩ := hx
    exact ⟨a, rfl, hr, fun z hz => (FP.fin_inj.1 hz).ge, by simpa using h1, by simp⟩
  | cons b L ih =>
    obtain ⟨a, rfl, hr, h0, h1⟩ := hx
    obtain ⟨c, hc, cr, c0, c1⟩ := hg b (by simp)
    have hle : a + c ≤ ((k + 1 : Nat) : ℝ) * M := by push_cast; linarith
    simp only [List.length_cons] at hk ⊢
    have hrep := hM (k + 1) (by omega)
    obtain ⟨y, hy, yr, ya, yb⟩ := rnd_between hr hrep (by linarith) hle
    obtain ⟨y', hy', -, yc, -⟩ := rnd_between cr hrep (by linarith) hle
    obtain rfl : y = y' := by rw [hy] at hy'; injection hy'
    have hstep : (FP.fin a +. g b : FP R) = FP.fin y := by rw [hc, FP.add_fin]; exact hy
    obtain ⟨w, h2, h3, h4, h5, h6⟩ := ih (fun d hd => hg d (by simp [hd])) (k + 1) (by omega) (FP.fin y)
      ⟨y, rfl, yr, by linarith, yb⟩
    have hyw : y ≤ w := h4 y rfl
    refine ⟨w, ?_, h3, ?_, ?_, ?_⟩
    · rw [List.foldl_cons, hstep]; exact h2
    · intro z hz
      rw [← FP.fin_inj.1 hz]; linarith
    · refine h5.trans_eq ?_
      congr 2; omega
    · intro d hd z hz
      rcases List.mem_cons.1 hd with rfl | hd
      · rw [hc] at hz
        rw [← FP.fin_inj.1 hz]; linarith
      · exact h6 d hd z hz

theorem Spec.Precise.mul_one (h : Precise R N) (k : Nat) (hk : k ≤ N) : Rep R (k * 1) := by
  rw [_root_.mul_one]; exact h.rep hk

/-- Products with a matrix of ones: the numbers at the ones, added from left to right. -/
theorem rowDot_part {B : Type} {bs : List B} {g : B → Option (FP R)} (P : B → Prop)
    [DecidablePred P] (hg : ∀ b ∈ bs, g b = if P b then some (FP.fin 1) else none) {F : B → ℝ}
    (hF : ∀ b ∈ bs, Rep R (F b)) : rowDot bs g (fun b => FP.fin (F b)) =
      (bs.filter P).foldl (fun acc b => acc +. (FP.fin (F b) : FP R)) (FP.fin 0) := by
  have hpart : ∀ (L : List B), (∀ b ∈ L, b ∈ bs) → ∀ a : FP R,
      L.foldl (rowStep g fun b => FP.fin (F b)) a = (L.filter P).foldl (fun acc b => acc +. (FP.fin (F b) : FP R)) a := by
    intro L
    induction L with
    | nil => intro _ a; rfl
    | cons b L ih =>
      intro hL a
      have hgb := hg b (hL b (by simp))
      have ih' := ih fun c hc => hL c (by simp [hc])
      by_cases hp : P b
      · rw [if_pos hp] at hgb
        have hmul : (FP.fin 1 *. FP.fin (F b) : FP R) = FP.fin (F b) := by
          rw [FP.mul_fin, one_mul]; exact hF b (hL b (by simp))
        simp only [List.filter_cons, hp, decide_true, ↓reduceIte, List.foldl_cons, rowStep, hgb, hmul]
        exact ih' _
      · rw [if_neg hp] at hgb
        simp only [List.filter_cons, hp, decide_false, Bool.false_eq_true, ↓reduceIte, List.foldl_cons, rowStep, hgb]
        exact ih' _
  unfold rowDot
  rw [FP.zero_eq, hpart bs fun _ h => h]

/-- Row of a 0-1 matrix times a vector of nonnegative numbers, with a real bound. -/
theorem rowDot_btw {B : Type} [DecidableEq B] {bs : List B} {g : B → Option (FP R)} (P : B → Prop)
    [DecidablePred P] (hg : ∀ b ∈ bs, g b = if P b then some (FP.fin 1) else none) {F : B → ℝ} {M : ℝ}
    (hM : ∀ k : Nat, k ≤ bs.length → Rep R (k * M)) (hF : ∀ b ∈ bs, Rep R (F b) ∧ 0 ≤ F b ∧ F b ≤ M) (h0 : 0 ≤ M) :
    ∃ r, rowDot bs g (fun b => FP.fin (F b)) = FP.fin r ∧ Rep R r ∧ 0 ≤ r ∧ r ≤ bs.length * M ∧
      ∀ b ∈ bs, P b → F b ≤ r := by
  have hlen : (bs.filter P).length ≤ bs.length := List.length_filter_le _ _
  obtain ⟨y, h1, h2, h3, h4, h5⟩ := foldl_btw hM (fun b => (FP.fin (F b) : FP R)) (bs.filter P)
    (fun b hb => ⟨F b, rfl, hF b (List.mem_of_mem_filter hb)⟩) 0 (by simpa using hlen) (FP.fin 0)
    ⟨0, rfl, rep_zero, le_rfl, by simp⟩
  refine ⟨y, ?_, h2, h3 0 rfl, ?_, fun b hb hp => h5 b ?_ _ rfl⟩
  · rw [rowDot_part P hg fun b hb => (hF b hb).1]
    exact h1
  · refine h4.trans ?_
    rw [zero_add]
    exact mul_le_mul_of_nonneg_right (by exact_mod_cast hlen) h0
  · rw [List.mem_filter]
    exact ⟨hb, by simpa using hp⟩

end

/-! ### binary64 -/

theorem rep64_mul {k : Nat} (hk : k ≤ 2 ^ 53) {e : ℤ} (h1 : -1074 ≤ e) (h2 : e ≤ 970) :
    Rep (.binary64 ω) (k * 2 ^ e) := by
  refine (C31_nearest _).2.2.2 ?_
  rcases hk.lt_or_eq with h | rfl
  · exact ⟨k, e, by push_cast; rfl, by rw [Nat.abs_cast]; exact_mod_cast h, h1, by omega⟩
  · refine ⟨2 ^ 52, e + 1, ?_, ?_, by omega, by omega⟩
    · rw [zpow_add₀ two_ne_zero]
      push_cast
      rw [zpow_one]
      ring
    · rw [abs_of_nonneg (by positivity)]; norm_num

theorem rep64_pow {e : ℤ} (h1 : -1074 ≤ e) (h2 : e ≤ 970) : Rep (.binary64 ω) (2 ^ e) := by
  have := rep64_mul (ω := ω) (k := 1) (by norm_num) h1 h2
  simpa using this

/-- The least power of two that is at least `m`. -/
theorem pow_above {m : ℝ} (hm : 0 < m) : ∃ e : ℤ, (2 : ℝ) ^ (e - 1) ≤ m ∧ m ≤ 2 ^ e := by
  refine ⟨Int.log 2 m + 1, ?_, (Double.log_bounds hm).2.le⟩
  rw [add_sub_cancel_right]
  exact (Double.log_bounds hm).1

/-! ### AverageLog -/

/-- The weight of a source with `n` claims. -/
theorem weight64 {n : Nat} (h1 : 1 ≤ n) (hn : n ≤ 2 ^ 53) :
    ∃ w, (Arith.log (FP.fin n : FP (.binary64 ω)) /. FP.fin n) = FP.fin w ∧ Rep (.binary64 ω) w ∧ 0 ≤ w ∧ w ≤ 1 ∧
      (n = 1 → w = 0) ∧ (2 ≤ n → (2 : ℝ) ^ (-54 : ℤ) ≤ w) := by
  have hn1 : (1 : ℝ) ≤ n := by exact_mod_cast h1
  have hlog0 : 0 ≤ Real.log n := Real.log_nonneg hn1
  have hlogn : Real.log n ≤ n := (Real.log_le_sub_one_of_pos (by linarith)).trans (by linarith)
  have hrn : Rep (.binary64 ω) n := rep64_nat hn
  obtain ⟨q, hq, qr, q0, qn⟩ := faithful_between ((Rounding.binary64 ω).log_faithful n (by linarith)) rep_zero hrn hlog0 hlogn
  have e : (Arith.log (FP.fin n : FP (.binary64 ω))) = FP.fin q := by
    show FNum.log (.binary64 ω) (.fin n) = _
    simp only [FNum.log]
    rw [if_neg (by linarith), if_neg (by linarith), hq]
    rfl
  obtain ⟨w, hw, wr, w0, w1⟩ := rnd_between (R := .binary64 ω) rep_zero rep_one (div_nonneg q0 (by linarith : (0 : ℝ) ≤ n))
    ((div_le_one (by linarith)).2 qn)
  refine ⟨w, ?_, wr, w0, w1, ?_, ?_⟩
  · rw [e, FP.div_fin _ (by linarith)]
    exact hw
  · rintro rfl
    have : q = 0 := by
      have h0 := faithful_rep ((Rounding.binary64 ω).log_faithful ((1 : Nat) : ℝ) (by norm_num))
        (by rw [Nat.cast_one, Real.log_one]; exact rep_zero)
      rw [Nat.cast_one, Real.log_one, ← Nat.cast_one (R := ℝ), hq] at h0
      injection h0
    rw [this, zero_div, (Rounding.binary64 ω).zero] at hw
    injection hw with hw
    exact hw.symm
  · intro h2
    have hn2 : (2 : ℝ) ≤ n := by exact_mod_cast h2
    have hhalf : (2 : ℝ) ^ (-1 : ℤ) ≤ Real.log n := by
      refine le_trans ?_ (Real.one_sub_inv_le_log_of_pos (by linarith : (0 : ℝ) < n))
      have : (n : ℝ)⁻¹ ≤ 2⁻¹ := inv_anti₀ two_pos hn2
      rw [zpow_neg, zpow_one]
      norm_num at this ⊢
      linarith
    obtain ⟨q', hq', -, hqh, -⟩ := faithful_between ((Rounding.binary64 ω).log_faithful n (by linarith)) (rep64_pow (e := -1) (by norm_num) (by norm_num)) hrn
      hhalf hlogn
    obtain rfl : q = q' := by rw [hq] at hq'; injection hq'
    have hdiv : (2 : ℝ) ^ (-54 : ℤ) ≤ q / n := by
      rw [le_div_iff₀ (by linarith)]
      have hn53 : (n : ℝ) ≤ 2 ^ (53 : ℤ) := by exact_mod_cast hn
      calc (2 : ℝ) ^ (-54 : ℤ) * n ≤ 2 ^ (-54 : ℤ) * 2 ^ (53 : ℤ) :=
            mul_le_mul_of_nonneg_left hn53 (Double.two_zpow_pos _).le
        _ = 2 ^ (-1 : ℤ) := by rw [← zpow_add₀ two_ne_zero]; norm_num
        _ ≤ q := hqh
    obtain ⟨w', hw', -, hwl, -⟩ := rnd_between (R := .binary64 ω) (rep64_pow (e := -54) (by norm_num) (by norm_num)) rep_one
      hdiv ((div_le_one (by linarith)).2 qn)
    obtain rfl : w = w' := by rw [hw] at hw'; injection hw'
    exact hwl

section
variable {S V X : Type} [DecidableEq S] [DecidableEq V] [DecidableEq X] (l : List (S × V × X))

theorem card_claimsOf_le (s : S) : (claimsOf l s).card ≤ (claims l).length := by
  rw [length_claims]
  exact Finset.card_le_card fun c hc => (mem_allClaims l).2 (mem_claims_of_claimsOf l hc)

theorem claimCounts_fp {R : Rounding} {N : Nat} (f : Option (V → X → X → Option (FP R))) (hN : Precise R N)
    (hC : (claims l).length ≤ N) :
    claimCounts (matsOf l f) = (sources l).map fun s => FP.fin ((claimsOf l s).card : ℝ) := by
  rw [claimCounts_eq]
  apply List.map_congr_left
  intro s _
  have e : ∑ b ∈ (claims l).toFinset.filter (fun c => (s, c) ∈ recorded l), 1 = (claimsOf l s).card := by
    rw [Finset.sum_const, smul_eq_mul, mul_one]
    congr 1
    ext c
    simp only [Finset.mem_filter, List.mem_toFinset, mem_claimsOf]
    exact ⟨fun h => h.2, fun h => ⟨mem_claims_of_claimsOf l ((mem_claimsOf l).2 h), h⟩⟩
  have := rowDot_nat hN (nodup_claims l) (fun c => (s, c) ∈ recorded l) (fun c _ => scL_fp l s c)
    (fun _ => 1) (by rw [e]; exact (card_claimsOf_le l s).trans hC)
  rw [e] at this
  simpa only [FP.one_eq, Nat.cast_one] using this

/-- Beliefs from which AverageLog can go on: a claim of a source with several claims has a belief
that is not too small. -/
def AvStart (M : Nat) (b : Vec (FP (.binary64 ω))) : Prop :=
  ∃ B : V × X → ℝ, b = (claims l).map (fun c => FP.fin (B c)) ∧
    (∀ c ∈ claims l, Rep (.binary64 ω) (B c) ∧ 0 ≤ B c ∧ B c ≤ M) ∧
    ∃ s c, (s, c) ∈ recorded l ∧ Multi l s ∧ (2 : ℝ) ^ (-54 : ℤ) ≤ B c

theorem avlog_normal (f : Option (V → X → X → Option (FP (.binary64 ω)))) {M : Nat}
    (hM : (sources l).length * ((claims l).length * M) ≤ 2 ^ 53) (hM' : (claims l).length * M ≤ 2 ^ 53)
    (hC : (claims l).length ≤ 2 ^ 53) (hS : (sources l).length ≤ 2 ^ 53)
    (t : Vec (FP (.binary64 ω))) {b : Vec (FP (.binary64 ω))} (hb : AvStart l M b) :
    ∃ s, avlogBody (matsOf l f) t b = .ok (some s) ∧ s.cmp1 = s.trust ∧ s.cmp2 = t ∧
      Normal l s.trust s.belief ∧ AvStart l 1 s.belief := by
  obtain ⟨B, rfl, hB, s0, c0, hrec, hms, hδ⟩ := hb
  have hs0 : s0 ∈ sources l := mem_sources_of_sourcesOf l ((mem_sourcesOf l).2 hrec)
  have hc0 : c0 ∈ claims l := mem_claims_of_claimsOf l ((mem_claimsOf l).2 hrec)
  have h1 : ∀ s, ∃ r, rowDot (claims l) (scL l s) (fun c => (FP.fin (B c) : FP (.binary64 ω))) = FP.fin r ∧
      Rep (.binary64 ω) r ∧ 0 ≤ r ∧ r ≤ ((claims l).length * M : Nat) ∧ ∀ c ∈ claims l, (s, c) ∈ recorded l → B c ≤ r :=
    fun s => rowDot_bounds C31_binary64 (fun c => (s, c) ∈ recorded l) (fun c _ => scL_fp l s c) hM' hB
  choose r hr using h1
  have h2 : ∀ s, ∃ w, s ∈ sources l →
      (Arith.log (FP.fin ((claimsOf l s).card : ℝ) : FP (.binary64 ω)) /. FP.fin ((claimsOf l s).card : ℝ)) = FP.fin w ∧
      Rep (.binary64 ω) w ∧ 0 ≤ w ∧ w ≤ 1 ∧ ((claimsOf l s).card = 1 → w = 0) ∧
      (2 ≤ (claimsOf l s).card → (2 : ℝ) ^ (-54 : ℤ) ≤ w) := by
    intro s
    by_cases hs : s ∈ sources l
    · obtain ⟨w, hw⟩ := weight64 (n := (claimsOf l s).card) (claimsOf_nonempty l hs).card_pos
        ((card_claimsOf_le l s).trans hC)
      exact ⟨w, fun _ => hw⟩
    · exact ⟨0, fun h => absurd h hs⟩
  choose w hw using h2
  have h3 : ∀ s, ∃ y, s ∈ sources l → (FP.fin (w s) *. FP.fin (r s) : FP (.binary64 ω)) = FP.fin y ∧ Rep (.binary64 ω) y ∧
      0 ≤ y ∧ y ≤ ((claims l).length * M : Nat) ∧ (¬ Multi l s → y = 0) ∧
      (Multi l s → (2 : ℝ) ^ (-54 : ℤ) ≤ r s → (2 : ℝ) ^ (-108 : ℤ) ≤ y) := by
    intro s
    by_cases hs : s ∈ sources l
    swap
    · exact ⟨0, fun h => absurd h hs⟩
    obtain ⟨-, rr, r0, r1, -⟩ := hr s
    obtain ⟨-, wr, w0, w1, wz, wl⟩ := hw s hs
    have hle : w s * r s ≤ ((claims l).length * M : Nat) := by
      refine le_trans ?_ r1
      have := mul_le_mul_of_nonneg_right w1 r0
      linarith
    obtain ⟨y, hy, yr, y0, y1⟩ := rnd_between (R := .binary64 ω) rep_zero (rep64_nat hM') (mul_nonneg w0 r0) hle
    refine ⟨y, fun _ => ⟨?_, yr, y0, y1, ?_, ?_⟩⟩
    · rw [FP.mul_fin]; exact hy
    · intro hn
      have hc1 : (claimsOf l s).card = 1 := by
        have h1 := (claimsOf_nonempty l hs).card_pos
        unfold Multi at hn
        omega
      rw [wz hc1, zero_mul, (Rounding.binary64 ω).zero] at hy
      injection hy with hy
      exact hy.symm
    · intro hm hrl
      have hprod : (2 : ℝ) ^ (-108 : ℤ) ≤ w s * r s := by
        rw [show (-108 : ℤ) = -54 + -54 by norm_num, zpow_add₀ two_ne_zero]
        exact mul_le_mul (wl hm) hrl (Double.two_zpow_pos _).le w0
      obtain ⟨y', hy', -, hl', -⟩ := rnd_between (R := .binary64 ω)
        (rep64_pow (e := -108) (by norm_num) (by norm_num)) (rep64_nat hM') hprod hle
      obtain rfl : y = y' := by rw [hy] at hy'; injection hy'
      exact hl'
  choose T hT using h3
  have e1 : vzip Arith.mul (avlogWeights (matsOf l f)) ((matsOf l f).sc.mulVec ((claims l).map fun c => FP.fin (B c))) =
      (sources l).map fun s => FP.fin (T s) := by
    unfold avlogWeights vzip
    rw [claimCounts_fp l f C31_binary64 hC, sc_eq_ofRel, Mat.mulVec_ofRel, List.map_map, List.zipWith_map,
      List.zipWith_self]
    apply List.map_congr_left
    intro s hs
    simp only [Function.comp_apply]
    rw [(hw s hs).1, (hr s).1]
    exact (hT s hs).1
  -- the source with the largest trust
  have hT0 : (2 : ℝ) ^ (-108 : ℤ) ≤ T s0 :=
    (hT s0 hs0).2.2.2.2.2 hms (hδ.trans ((hr s0).2.2.2.2 c0 hc0 hrec))
  have hp108 : (0 : ℝ) < 2 ^ (-108 : ℤ) := Double.two_zpow_pos _
  obtain ⟨m, hm, -, hmax⟩ := pyMax_fp (R := .binary64 ω) (sources_ne (l := l) (by rintro rfl; cases hs0)) T
  have hmT : (2 : ℝ) ^ (-108 : ℤ) ≤ T m := hT0.trans (hmax s0 hs0)
  have hmpos : 0 < T m := hp108.trans_le hmT
  have hmm : Multi l m := by
    by_contra h
    exact hmpos.ne' ((hT m hm).2.2.2.2.1 h)
  obtain ⟨e, he1, he2⟩ := pow_above hmpos
  have hM53 : (((claims l).length * M : Nat) : ℝ) ≤ 2 ^ (53 : ℤ) := by exact_mod_cast hM'
  have hel : -108 ≤ e := (zpow_le_zpow_iff_right₀ (by norm_num : (1 : ℝ) < 2)).1 (hmT.trans he2)
  have heu : e - 1 ≤ 53 :=
    (zpow_le_zpow_iff_right₀ (by norm_num : (1 : ℝ) < 2)).1 ((he1.trans (hT m hm).2.2.2.1).trans hM53)
  have hpe : (0 : ℝ) < 2 ^ e := Double.two_zpow_pos _
  have h4 : ∀ c, ∃ y, rowDot (sources l) (fun s => scL l s c) (fun s => (FP.fin (T s) : FP (.binary64 ω))) = FP.fin y ∧
      Rep (.binary64 ω) y ∧ 0 ≤ y ∧ y ≤ (sources l).length * 2 ^ e ∧ ∀ s ∈ sources l, (s, c) ∈ recorded l → T s ≤ y :=
    fun c => rowDot_btw (fun s => (s, c) ∈ recorded l) (fun s _ => scL_fp l s c)
      (fun k hk => rep64_mul (hk.trans hS) (by omega) (by omega))
      (fun s hs => ⟨(hT s hs).2.1, (hT s hs).2.2.1, (hmax s hs).trans he2⟩) hpe.le
  choose B' hB' using h4
  have e2 : (matsOf l f).sc.T.mulVec ((sources l).map fun s => FP.fin (T s)) =
      (claims l).map fun c => FP.fin (B' c) := by
    rw [scT_eq_ofRel, Mat.mulVec_ofRel]
    apply List.map_congr_left
    intro c _
    exact (hB' c).1
  obtain ⟨cm, hcm⟩ := claimsOf_nonempty l hm
  have hrecm := (mem_claimsOf l).1 hcm
  have hcm' := mem_claims_of_claimsOf l hcm
  have hBm : T m ≤ B' cm := (hB' cm).2.2.2.2 m hm hrecm
  obtain ⟨T1, n1, n2, n3⟩ := normalise_fp (R := .binary64 ω) T (fun s hs => (hT s hs).2.2.1) ⟨m, hm, hmpos⟩
  obtain ⟨B1, m1, m2, m3⟩ := normalise_fp (R := .binary64 ω) B' (fun c _ => (hB' c).2.2.1) ⟨cm, hcm', hmpos.trans_le hBm⟩
  have hB1 : (2 : ℝ) ^ (-54 : ℤ) ≤ B1 cm := by
    obtain ⟨top, htop, hmx, htopmax⟩ := pyMax_fp (R := .binary64 ω) (List.ne_nil_of_mem hcm') B'
    have htp : 0 < B' top := (hmpos.trans_le hBm).trans_le (htopmax cm hcm')
    have hval : (Rounding.binary64 ω).rnd (B' cm / B' top) = .fin (B1 cm) := by
      unfold normalise at m1
      rw [hmx] at m1
      simp only [bind, Except.bind, pure, Except.pure, List.map_map, Except.ok.injEq] at m1
      have := (List.map_inj_left.1 m1) cm hcm'
      simp only [Function.comp_apply] at this
      rw [FP.div_fin _ htp.ne'] at this
      exact this
    have hSl : ((sources l).length : ℝ) ≤ 2 ^ (53 : ℤ) := by exact_mod_cast hS
    have hquot : (2 : ℝ) ^ (-54 : ℤ) ≤ B' cm / B' top := by
      rw [le_div_iff₀ htp]
      calc (2 : ℝ) ^ (-54 : ℤ) * B' top ≤ 2 ^ (-54 : ℤ) * ((sources l).length * 2 ^ e) :=
            mul_le_mul_of_nonneg_left (hB' top).2.2.2.1 (Double.two_zpow_pos _).le
        _ ≤ 2 ^ (-54 : ℤ) * (2 ^ (53 : ℤ) * 2 ^ e) :=
            mul_le_mul_of_nonneg_left (mul_le_mul_of_nonneg_right hSl hpe.le) (Double.two_zpow_pos _).le
        _ = 2 ^ (e - 1) := by rw [← zpow_add₀ two_ne_zero, ← zpow_add₀ two_ne_zero]; congr 1; omega
        _ ≤ T m := he1
        _ ≤ B' cm := hBm
    obtain ⟨y', hy', -, hl', -⟩ := rnd_between (R := .binary64 ω)
      (rep64_pow (e := -54) (by norm_num) (by norm_num)) rep_one hquot ((div_le_one htp).2 (htopmax cm hcm'))
    rw [hval] at hy'
    injection hy' with hy'
    rw [hy']; exact hl'
  refine ⟨⟨(sources l).map fun s => FP.fin (T1 s), t, (sources l).map fun s => FP.fin (T1 s),
    (claims l).map fun c => FP.fin (B1 c)⟩, ?_, rfl, rfl, ⟨T1, B1, rfl, rfl, n2, m2, n3, m3⟩,
    B1, rfl, by simpa using m2, m, cm, hrecm, hmm, hB1⟩
  unfold avlogBody
  rw [e1]
  dsimp only
  rw [e2, n1, m1]
  rfl

/-! ### CRH -/

theorem rep_neg {R : Rounding} {x : ℝ} (h : Rep R x) : Rep R (-x) := by
  show R.rnd (-x) = _
  rw [R.odd, h]
  rfl

theorem btw_zero {R : Rounding} {b : ℝ} (h : 0 ≤ b) : Btw R 0 b (Arith.ofNat 0) :=
  ⟨0, FP.zero_eq, rep_zero, le_rfl, h⟩

theorem btw_mul {R : Rounding} {a b : ℝ} (ha0 : 0 ≤ a) (hb0 : 0 ≤ b) (hr : Rep R (a * b)) {x y : FP R}
    (hx : Btw R 0 a x) (hy : Btw R 0 b y) : Btw R 0 (a * b) (x *. y) := by
  obtain ⟨u, rfl, -, u0, u1⟩ := hx
  obtain ⟨v, rfl, -, v0, v1⟩ := hy
  rw [FP.mul_fin]
  exact btw_rnd rep_zero hr (mul_nonneg u0 v0) (mul_le_mul u1 v1 v0 ha0)

theorem btw_one {R : Rounding} : Btw R 0 1 (Arith.ofNat 1) := ⟨1, FP.one_eq, rep_one, zero_le_one, le_rfl⟩

theorem oneIf_btw {R : Rounding} {b : Bool} {x : FP R} (h : oneIf b = some x) : Btw R 0 1 x := by
  unfold oneIf at h
  split at h
  · cases h; exact btw_one
  · cases h

theorem at_btw {R : Rounding} {m : ℝ} (hm : 0 ≤ m) {v : Vec (FP R)} (h : ∀ x ∈ v, Btw R 0 m x) (j : Nat) :
    Btw R 0 m (v.at j) := by
  unfold Vec.at
  rw [List.getD_eq_getElem?_getD]
  cases e : v[j]? with
  | none => exact btw_zero hm
  | some x => exact h x (List.mem_of_getElem? e)

/-- Sums of numbers in `[0, M]`, in any order. -/
theorem sum_btw {R : Rounding} {K : Nat} {M : ℝ} (hM : ∀ k : Nat, k ≤ K → Rep R (k * M)) (h0 : 0 ≤ M) (v : Vec (FP R))
    (hK : v.length ≤ K) (hv : ∀ x ∈ v, Btw R 0 M x) :
    ∃ y, (Arith.sum v : FP R) = FP.fin y ∧ Rep R y ∧ 0 ≤ y ∧ y ≤ K * M ∧ ∀ x ∈ v, ∀ z, x = FP.fin z → z ≤ y := by
  obtain ⟨l, hl, h⟩ := sum_order_fp v id (fun l x => ∃ y, x = FP.fin y ∧ Rep R y ∧ 0 ≤ y ∧ y ≤ l.length * M ∧
      ∀ x ∈ l, ∀ z, x = FP.fin z → z ≤ y)
    (fun _ => ⟨0, rfl, rep_zero, le_rfl, by simp, by simp⟩)
    (fun a ha => by
      obtain ⟨y, rfl, hr, y0, y1⟩ := hv a ha
      refine ⟨y, ?_, hr, y0, by simpa using y1, ?_⟩
      · rw [id, FP.add_fin, zero_add]; exact hr
      · intro x hx z hz
        rw [List.mem_singleton] at hx
        rw [hx] at hz
        exact (FP.fin_inj.1 hz).ge)
    (fun l m x y hs hx hy => by
      obtain ⟨a, rfl, ra, a0, a1, a2⟩ := hx
      obtain ⟨b, rfl, rb, b0, b1, b2⟩ := hy
      have hr := hM (l ++ m).length (hs.length_le.trans hK)
      have hle : a + b ≤ (l ++ m).length * M := by
        rw [List.length_append]; push_cast; linarith
      obtain ⟨z, hz, rz, z0, z1⟩ := rnd_between ra hr (by linarith : a ≤ a + b) hle
      obtain ⟨z', hz', -, z2, -⟩ := rnd_between rb hr (by linarith : b ≤ a + b) hle
      have e : z' = z := by rw [hz] at hz'; injection hz' with h; exact h.symm
      subst e
      refine ⟨z', by rw [FP.add_fin]; exact hz, rz, a0.trans z0, z1, ?_⟩
      intro x hx w hw
      rcases List.mem_append.1 hx with h | h
      · exact (a2 x h w hw).trans z0
      · exact (b2 x h w hw).trans z2)
  rw [List.map_id] at h
  obtain ⟨y, h1, h2, h3, h4, h5⟩ := h
  refine ⟨y, h1, h2, h3, h4.trans ?_, fun x hx => h5 x (hl.mem_iff.2 hx)⟩
  refine mul_le_mul_of_nonneg_right ?_ h0
  exact_mod_cast hl.length_eq.trans_le hK

/-- Scalar products of numbers in `[0, M]` with ones, in any order. -/
theorem dot_ones_btw {R : Rounding} {K : Nat} {M : ℝ} (hM : ∀ k : Nat, k ≤ K → Rep R (k * M)) (h0 : 0 ≤ M) (v : Vec (FP R))
    (hK : v.length ≤ K) (hv : ∀ x ∈ v, Btw R 0 M x) : Btw R 0 (K * M) (Arith.dot v (ones v.length)) := by
  have e : (ones v.length : Vec (FP R)) = v.map fun _ => FP.fin 1 := by
    rw [ones, FP.one_eq]; simp
  obtain ⟨l, hl, h⟩ := dot_order_fp v id (fun _ => (FP.fin 1 : FP R)) (fun l x => Btw R 0 (l.length * M) x)
    (fun _ => ⟨0, rfl, rep_zero, le_rfl, by simp⟩)
    (fun a ha => by
      obtain ⟨y, rfl, hr, y0, y1⟩ := hv a ha
      rw [id, FP.mul_fin, mul_one]
      exact ⟨y, hr, hr, y0, by simpa using y1⟩)
    (fun a l y hs hy => by
      obtain ⟨x, rfl, rx, x0, x1⟩ := hv a (hs.subset (by simp))
      obtain ⟨b, rfl, rb, b0, b1⟩ := hy
      have e : FNum.fma R (FNum.fin x) (FNum.fin 1) (FNum.fin b) = R.rnd (x * 1 + b) := rfl
      show Btw R 0 _ (FNum.fma R (FNum.fin x) (FNum.fin 1) (FNum.fin b))
      rw [e, mul_one]
      refine btw_rnd rep_zero (hM _ (hs.length_le.trans hK)) (by linarith) ?_
      rw [List.length_cons]; push_cast; linarith)
    (fun l m x y hs hx hy => by
      obtain ⟨a, rfl, ra, a0, a1⟩ := hx
      obtain ⟨b, rfl, rb, b0, b1⟩ := hy
      rw [FP.add_fin]
      refine btw_rnd rep_zero (hM _ (hs.length_le.trans hK)) (by linarith) ?_
      rw [List.length_append]; push_cast; linarith)
  rw [List.map_id, ← e] at h
  refine h.mono le_rfl (mul_le_mul_of_nonneg_right ?_ h0)
  exact_mod_cast hl.length_eq.trans_le hK

end
end TD
