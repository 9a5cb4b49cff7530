import Verif.Lemmas.Finite
import Verif.Lemmas.Interval
/-! One iteration of Investment and PooledInvestment in double precision, from scores that are not tiny. -/

namespace TD
open Spec
attribute [-instance] instBEqProd

section
variable {R : Rounding}

/-- Rows with any entries: the products at the entries, added from left to right. -/
theorem rowDot_entries {B : Type} {bs : List B} {g : B → Option (FP R)} {F : B → FP R} (P : B → Prop)
    [DecidablePred P] {G : B → FP R} (hg : ∀ b ∈ bs, g b = if P b then some (G b) else none) {H : B → ℝ}
    (hH : ∀ b ∈ bs, P b → (G b *. F b : FP R) = FP.fin (H b)) :
    rowDot bs g F = (bs.filter P).foldl (fun acc b => acc +. (FP.fin (H b) : FP R)) (FP.fin 0) := by
  have hpart : ∀ (L : List B), (∀ b ∈ L, b ∈ bs) → ∀ a : FP R,
      L.foldl (rowStep g F) a = (L.filter P).foldl (fun acc b => acc +. (FP.fin (H b) : FP R)) a := by
    intro L
    induction L with
    | nil => intro _ a; rfl
    | cons b L ih =>
      intro hL a
      have hgb := hg b (hL b (by simp))
      have ih' := ih fun c hc => hL c (by simp [hc])
      by_cases hp : P b
      · rw [if_pos hp] at hgb
        simp only [List.filter_cons, hp, decide_true, ↓reduceIte, List.foldl_cons, rowStep, hgb, hH b (hL b (by simp)) hp]
        exact ih' _
      · rw [if_neg hp] at hgb
        simp only [List.filter_cons, hp, decide_false, Bool.false_eq_true, ↓reduceIte, List.foldl_cons, rowStep, hgb]
        exact ih' _
  unfold rowDot
  rw [FP.zero_eq, hpart bs fun _ h => h]

theorem rowDot_entries_btw {B : Type} {bs : List B} {g : B → Option (FP R)} {F : B → FP R} (P : B → Prop)
    [DecidablePred P] {G : B → FP R} (hg : ∀ b ∈ bs, g b = if P b then some (G b) else none) {H : B → ℝ} {M : ℝ}
    (hM : ∀ k : Nat, k ≤ bs.length → Rep R (k * M)) (h0 : 0 ≤ M)
    (hH : ∀ b ∈ bs, P b → (G b *. F b : FP R) = FP.fin (H b) ∧ Rep R (H b) ∧ 0 ≤ H b ∧ H b ≤ M) :
    ∃ r, rowDot bs g F = FP.fin r ∧ Rep R r ∧ 0 ≤ r ∧ r ≤ bs.length * M ∧ ∀ b ∈ bs, P b → H b ≤ r := by
  have hlen : (bs.filter P).length ≤ bs.length := List.length_filter_le _ _
  have hmem : ∀ b ∈ bs.filter P, b ∈ bs ∧ P b := fun b hb => by simpa using List.mem_filter.1 hb
  obtain ⟨y, h1, h2, h3, h4, h5⟩ := foldl_btw hM (fun b => (FP.fin (H b) : FP R)) (bs.filter P)
    (fun b hb => ⟨H b, rfl, (hH b (hmem b hb).1 (hmem b hb).2).2⟩) 0 (by simpa using hlen) (FP.fin 0)
    ⟨0, rfl, rep_zero, le_rfl, by simp⟩
  refine ⟨y, ?_, h2, h3 0 rfl, ?_, fun b hb hp => h5 b ?_ _ rfl⟩
  · rw [rowDot_entries P hg fun b hb hp => (hH b hb hp).1]
    exact h1
  · refine h4.trans ?_
    rw [zero_add]
    exact mul_le_mul_of_nonneg_right (by exact_mod_cast hlen) h0
  · rw [List.mem_filter]
    exact ⟨hb, by simpa using hp⟩

end

section
variable {S V X : Type} [DecidableEq S] [DecidableEq V] [DecidableEq X] (l : List (S × V × X)) {ω : Platform}

theorem p2_add (a b : ℤ) : (2 : ℝ) ^ a * 2 ^ b = 2 ^ (a + b) := (zpow_add₀ two_ne_zero a b).symm

theorem p2_le {a b : ℤ} (h : a ≤ b) : (2 : ℝ) ^ a ≤ 2 ^ b := zpow_le_zpow_right₀ one_le_two h

theorem p2_of_le {a b : ℤ} (h : (2 : ℝ) ^ a ≤ 2 ^ b) : a ≤ b :=
  (zpow_le_zpow_iff_right₀ (by norm_num : (1 : ℝ) < 2)).1 h

theorem p2_pos (a : ℤ) : (0 : ℝ) < 2 ^ a := Double.two_zpow_pos a

/-- The new trust of Investment and PooledInvestment before scaling, and what the claims receive. -/
theorem invest_returns (f : Option (V → X → X → Option (FP (.binary64 ω)))) (hS : (sources l).length ≤ 2 ^ 20)
    (hC : (claims l).length ≤ 2 ^ 20) (T : S → ℝ) (B : V × X → ℝ)
    (hT : ∀ s ∈ sources l, (2 : ℝ) ^ (-600 : ℤ) ≤ T s ∧ T s ≤ 2 ^ (20 : ℤ))
    (hB : ∀ c ∈ claims l, (2 : ℝ) ^ (-600 : ℤ) ≤ B c ∧ B c ≤ 2 ^ (20 : ℤ)) :
    ∃ (U : S → ℝ) (H : V × X → ℝ),
      updateTrust (matsOf l f) ((sources l).map fun s => FP.fin (T s)) ((claims l).map fun c => FP.fin (B c)) =
        some ((sources l).map fun s => FP.fin (U s)) ∧
      (matsOf l f).sc.T.mulVec (vzip Arith.div ((sources l).map fun s => FP.fin (U s)) (claimCounts (matsOf l f))) =
        (claims l).map (fun c => FP.fin (H c)) ∧
      (∀ s ∈ sources l, 0 ≤ U s) ∧
      (∀ c ∈ claims l, ∃ s ∈ sources l, (2 : ℝ) ^ (-621 : ℤ) ≤ U s) ∧
      ∀ c ∈ claims l, (2 : ℝ) ^ (-641 : ℤ) ≤ H c ∧ H c ≤ 2 ^ (61 : ℤ) := by
  have hcount : ∀ s ∈ sources l, (1 : ℝ) ≤ ((claimsOf l s).card : ℝ) ∧ ((claimsOf l s).card : ℝ) ≤ 2 ^ (20 : ℤ) := by
    intro s hs
    refine ⟨by exact_mod_cast (claimsOf_nonempty l hs).card_pos, ?_⟩
    have := (card_claimsOf_le l s).trans hC
    exact_mod_cast this
  have hNS : ((sources l).length : ℝ) ≤ 2 ^ (20 : ℤ) := by exact_mod_cast hS
  have hNC : ((claims l).length : ℝ) ≤ 2 ^ (20 : ℤ) := by exact_mod_cast hC
  -- the quotient by the number of claims
  have hquot : ∀ {lo hi : ℤ}, -1054 ≤ lo → hi ≤ 970 → lo ≤ hi → ∀ s ∈ sources l, ∀ y : ℝ, (0 ≤ y ∧ y ≤ 2 ^ hi) →
      ∃ z, (FP.fin y /. FP.fin ((claimsOf l s).card : ℝ) : FP (.binary64 ω)) = FP.fin z ∧ Rep (.binary64 ω) z ∧
        0 ≤ z ∧ z ≤ 2 ^ hi ∧ ((2 : ℝ) ^ lo ≤ y → (2 : ℝ) ^ (lo - 20) ≤ z) := by
    intro lo hi h1 h2 h3 s hs y hy
    obtain ⟨c1, c2⟩ := hcount s hs
    have cpos : (0 : ℝ) < ((claimsOf l s).card : ℝ) := by linarith
    have hle : y / ((claimsOf l s).card : ℝ) ≤ 2 ^ hi := (div_le_self hy.1 c1).trans hy.2
    obtain ⟨z, hz, zr, z0, z1⟩ := rnd_between (R := .binary64 ω) rep_zero (rep64_pow (e := hi) (by omega) (by omega))
      (div_nonneg hy.1 cpos.le) hle
    refine ⟨z, ?_, zr, z0, z1, ?_⟩
    · rw [FP.div_fin _ cpos.ne']; exact hz
    · intro hlo
      have : (2 : ℝ) ^ (lo - 20) ≤ y / ((claimsOf l s).card : ℝ) := by
        rw [le_div_iff₀ cpos]
        calc (2 : ℝ) ^ (lo - 20) * ((claimsOf l s).card : ℝ) ≤ 2 ^ (lo - 20) * 2 ^ (20 : ℤ) :=
              mul_le_mul_of_nonneg_left c2 (p2_pos _).le
          _ = 2 ^ lo := by rw [p2_add]; congr 1; omega
          _ ≤ y := hlo
      obtain ⟨z', hz', -, hl', -⟩ := rnd_between (R := .binary64 ω) (rep64_pow (e := lo - 20) (by omega) (by omega))
        (rep64_pow (e := hi) (by omega) (by omega)) this hle
      obtain rfl : z = z' := by rw [hz] at hz'; injection hz'
      exact hl'
  -- amounts
  have h1 : ∀ s, ∃ z, s ∈ sources l → (FP.fin (T s) /. FP.fin ((claimsOf l s).card : ℝ) : FP (.binary64 ω)) = FP.fin z ∧
      Rep (.binary64 ω) z ∧ (2 : ℝ) ^ (-620 : ℤ) ≤ z ∧ z ≤ 2 ^ (20 : ℤ) := by
    intro s
    by_cases hs : s ∈ sources l
    · obtain ⟨z, a1, a2, a3, a4, a5⟩ := hquot (lo := -600) (hi := 20) (by norm_num) (by norm_num) (by norm_num) s hs (T s)
        ⟨(p2_pos _).le.trans (hT s hs).1, (hT s hs).2⟩
      exact ⟨z, fun _ => ⟨a1, a2, by simpa using a5 (hT s hs).1, a4⟩⟩
    · exact ⟨0, fun h => absurd h hs⟩
  choose a ha using h1
  -- the exponent of the largest amount invested in a claim
  have h2 : ∀ c, ∃ e : ℤ, c ∈ claims l → -620 ≤ e ∧ e ≤ 21 ∧ (∀ s ∈ sources l, (s, c) ∈ recorded l → a s ≤ 2 ^ e) ∧
      ∃ s ∈ sources l, (s, c) ∈ recorded l ∧ (2 : ℝ) ^ (e - 1) ≤ a s := by
    intro c
    by_cases hc : c ∈ claims l
    swap
    · exact ⟨0, fun h => absurd h hc⟩
    obtain ⟨m, hm, hmax⟩ := Finset.exists_max_image (sourcesOf l c) a (sourcesOf_nonempty l hc)
    have hms := mem_sources_of_sourcesOf l hm
    obtain ⟨-, -, a1, a2⟩ := ha m hms
    obtain ⟨e, e1, e2⟩ := pow_above ((p2_pos _).trans_le a1)
    refine ⟨e, fun _ => ⟨p2_of_le (a1.trans e2), ?_, ?_, m, hms, (mem_sourcesOf l).1 hm, e1⟩⟩
    · have := p2_of_le (e1.trans a2); omega
    · intro s hs hr
      exact (hmax s ((mem_sourcesOf l).2 hr)).trans e2
  choose e he using h2
  -- the amount invested in a claim
  have h3 : ∀ c, ∃ r, c ∈ claims l → rowDot (sources l) (fun s => scL l s c) (fun s => (FP.fin (a s) : FP (.binary64 ω))) =
      FP.fin r ∧ (2 : ℝ) ^ (e c - 1) ≤ r ∧ r ≤ 2 ^ (e c + 20) := by
    intro c
    by_cases hc : c ∈ claims l
    swap
    · exact ⟨0, fun h => absurd h hc⟩
    obtain ⟨e1, e2, e3, s, hs, hr, e4⟩ := he c hc
    obtain ⟨r, r1, -, -, r2, r3⟩ := rowDot_entries_btw (R := .binary64 ω) (F := fun s => FP.fin (a s))
      (fun s => (s, c) ∈ recorded l) (fun s _ => scL_fp l s c) (H := a) (M := 2 ^ e c)
      (fun k hk => rep64_mul ((hk.trans hS).trans (by norm_num)) (by omega) (by omega)) (p2_pos _).le
      (fun s hs hr => by
        obtain ⟨-, a1, a2, a3⟩ := ha s hs
        refine ⟨?_, a1, (p2_pos _).le.trans a2, e3 s hs hr⟩
        rw [FP.mul_fin, one_mul]; exact a1)
    refine ⟨r, fun _ => ⟨r1, e4.trans (r3 s hs hr), r2.trans ?_⟩⟩
    calc ((sources l).length : ℝ) * 2 ^ e c ≤ 2 ^ (20 : ℤ) * 2 ^ e c := mul_le_mul_of_nonneg_right hNS (p2_pos _).le
      _ = 2 ^ (e c + 20) := by rw [p2_add, add_comm]
  choose inv hinv using h3
  have hinvpos : ∀ c ∈ claims l, 0 < inv c := fun c hc => (p2_pos _).trans_le (hinv c hc).2.1
  -- its inverse
  have h4 : ∀ c, ∃ w, c ∈ claims l → (Arith.ofNat 1 /. FP.fin (inv c) : FP (.binary64 ω)) = FP.fin w ∧
      Rep (.binary64 ω) w ∧ (2 : ℝ) ^ (-(e c + 20)) ≤ w ∧ w ≤ 2 ^ (1 - e c) := by
    intro c
    by_cases hc : c ∈ claims l
    swap
    · exact ⟨0, fun h => absurd h hc⟩
    obtain ⟨e1, e2, -⟩ := he c hc
    obtain ⟨-, i1, i2⟩ := hinv c hc
    have hp := hinvpos c hc
    obtain ⟨w, hw, wr, w0, w1⟩ := rnd_between (R := .binary64 ω) (x := 1 / inv c)
      (rep64_pow (e := -(e c + 20)) (by omega) (by omega)) (rep64_pow (e := 1 - e c) (by omega) (by omega))
      (by
        rw [le_div_iff₀ hp]
        calc (2 : ℝ) ^ (-(e c + 20)) * inv c ≤ 2 ^ (-(e c + 20)) * 2 ^ (e c + 20) := mul_le_mul_of_nonneg_left i2 (p2_pos _).le
          _ = 1 := by rw [p2_add]; simp)
      (by
        rw [div_le_iff₀ hp]
        calc (1 : ℝ) = 2 ^ (1 - e c) * 2 ^ (e c - 1) := by rw [p2_add]; simp
          _ ≤ 2 ^ (1 - e c) * inv c := mul_le_mul_of_nonneg_left i1 (p2_pos _).le)
    refine ⟨w, fun _ => ⟨?_, wr, w0, w1⟩⟩
    rw [FP.one_eq, FP.div_fin _ hp.ne']; exact hw
  choose w hw using h4
  -- what one unit invested in a claim returns
  have h5 : ∀ c, ∃ q, c ∈ claims l → ((FP.fin 1 *. FP.fin (w c)) *. FP.fin (B c) : FP (.binary64 ω)) = FP.fin q ∧
      Rep (.binary64 ω) q ∧ (2 : ℝ) ^ (-(e c + 620)) ≤ q ∧ q ≤ 2 ^ (21 - e c) := by
    intro c
    by_cases hc : c ∈ claims l
    swap
    · exact ⟨0, fun h => absurd h hc⟩
    obtain ⟨e1, e2, -⟩ := he c hc
    obtain ⟨-, wr, w0, w1⟩ := hw c hc
    obtain ⟨b0, b1⟩ := hB c hc
    obtain ⟨q, hq, qr, q0, q1⟩ := rnd_between (R := .binary64 ω) (x := w c * B c)
      (rep64_pow (e := -(e c + 620)) (by omega) (by omega)) (rep64_pow (e := 21 - e c) (by omega) (by omega))
      (by
        calc (2 : ℝ) ^ (-(e c + 620)) = 2 ^ (-(e c + 20)) * 2 ^ (-600 : ℤ) := by rw [p2_add]; congr 1; omega
          _ ≤ w c * B c := mul_le_mul w0 b0 (p2_pos _).le ((p2_pos _).le.trans w0))
      (by
        calc w c * B c ≤ 2 ^ (1 - e c) * 2 ^ (20 : ℤ) := mul_le_mul w1 b1 ((p2_pos _).le.trans b0) (p2_pos _).le
          _ = 2 ^ (21 - e c) := by rw [p2_add]; congr 1; omega)
    refine ⟨q, fun _ => ⟨?_, qr, q0, q1⟩⟩
    have e1 : (FP.fin 1 *. FP.fin (w c) : FP (.binary64 ω)) = FP.fin (w c) := by
      rw [FP.mul_fin, one_mul]; exact wr
    rw [e1, FP.mul_fin]; exact hq
  choose q hq using h5
  -- the smallest exponent among the claims of a source, and the new trust
  have h6 : ∀ s, ∃ u, s ∈ sources l → (FP.fin (a s) *. rowDot (claims l) (fun c => (scL l s c).map (· *. (Arith.ofNat 1 /. FP.fin (inv c))))
      (fun c => (FP.fin (B c) : FP (.binary64 ω))) = FP.fin u ∧ Rep (.binary64 ω) u ∧ 0 ≤ u ∧ u ≤ 2 ^ (41 : ℤ) ∧
      ∀ c ∈ claims l, (s, c) ∈ recorded l → (2 : ℝ) ^ (e c - 1) ≤ a s → (2 : ℝ) ^ (-621 : ℤ) ≤ u) := by
    intro s
    by_cases hs : s ∈ sources l
    swap
    · exact ⟨0, fun h => absurd h hs⟩
    obtain ⟨m, hm, hmin⟩ := Finset.exists_min_image (claimsOf l s) e (claimsOf_nonempty l hs)
    have hmc := mem_claims_of_claimsOf l hm
    obtain ⟨e1, e2, e3, -⟩ := he m hmc
    have has := e3 s hs ((mem_claimsOf l).1 hm)
    obtain ⟨-, ar, a0, -⟩ := ha s hs
    have apos : 0 < a s := (p2_pos _).trans_le a0
    obtain ⟨r, r1, rr, r0, r2, r3⟩ := rowDot_entries_btw (R := .binary64 ω) (bs := claims l)
      (g := fun c => (scL l s c).map (· *. (Arith.ofNat 1 /. FP.fin (inv c)))) (F := fun c => FP.fin (B c))
      (fun c => (s, c) ∈ recorded l) (G := fun c => FP.fin 1 *. (Arith.ofNat 1 /. FP.fin (inv c)))
      (fun c _ => by
        rw [scL_fp]
        split <;> rfl) (H := q) (M := 2 ^ (21 - e m))
      (fun k hk => rep64_mul ((hk.trans hC).trans (by norm_num)) (by omega) (by omega)) (p2_pos _).le
      (fun c hc hr => by
        obtain ⟨q1, q2, q3, q4⟩ := hq c hc
        refine ⟨?_, q2, (p2_pos _).le.trans q3, q4.trans (p2_le ?_)⟩
        · rw [(hw c hc).1]; exact q1
        · have := hmin c ((mem_claimsOf l).2 hr); omega)
    have hle : a s * r ≤ 2 ^ (41 : ℤ) := by
      calc a s * r ≤ 2 ^ e m * (2 ^ (20 : ℤ) * 2 ^ (21 - e m)) :=
            mul_le_mul has (r2.trans (mul_le_mul_of_nonneg_right hNC (p2_pos _).le)) r0 (p2_pos _).le
        _ = 2 ^ (41 : ℤ) := by rw [p2_add, p2_add]; congr 1; omega
    obtain ⟨u, hu, ur, u0, u1⟩ := rnd_between (R := .binary64 ω) rep_zero (rep64_pow (e := 41) (by norm_num) (by norm_num))
      (mul_nonneg apos.le r0) hle
    refine ⟨u, fun _ => ⟨?_, ur, u0, u1, ?_⟩⟩
    · rw [r1, FP.mul_fin]; exact hu
    · intro c hc hr hea
      have hlow : (2 : ℝ) ^ (-621 : ℤ) ≤ a s * r := by
        calc (2 : ℝ) ^ (-621 : ℤ) = 2 ^ (e c - 1) * 2 ^ (-(e c + 620)) := by rw [p2_add]; congr 1; omega
          _ ≤ a s * r := mul_le_mul hea ((hq c hc).2.2.1.trans (r3 c hc hr)) (p2_pos _).le apos.le
      obtain ⟨u', hu', -, hl', -⟩ := rnd_between (R := .binary64 ω) (rep64_pow (e := -621) (by norm_num) (by norm_num))
        (rep64_pow (e := 41) (by norm_num) (by norm_num)) hlow hle
      obtain rfl : u = u' := by rw [hu] at hu'; injection hu'
      exact hl'
  choose U hU using h6
  have h7 : ∀ s, ∃ z, s ∈ sources l → (FP.fin (U s) /. FP.fin ((claimsOf l s).card : ℝ) : FP (.binary64 ω)) = FP.fin z ∧
      Rep (.binary64 ω) z ∧ 0 ≤ z ∧ z ≤ 2 ^ (41 : ℤ) ∧ ((2 : ℝ) ^ (-621 : ℤ) ≤ U s → (2 : ℝ) ^ (-641 : ℤ) ≤ z) := by
    intro s
    by_cases hs : s ∈ sources l
    · obtain ⟨z, hz⟩ := hquot (lo := -621) (hi := 41) (by norm_num) (by norm_num) (by norm_num) s hs (U s)
        ⟨(hU s hs).2.2.1, (hU s hs).2.2.2.1⟩
      exact ⟨z, fun _ => by simpa using hz⟩
    · exact ⟨0, fun h => absurd h hs⟩
  choose z hz using h7
  have h8 : ∀ c, ∃ r, c ∈ claims l → rowDot (sources l) (fun s => scL l s c) (fun s => (FP.fin (z s) : FP (.binary64 ω))) =
      FP.fin r ∧ (2 : ℝ) ^ (-641 : ℤ) ≤ r ∧ r ≤ 2 ^ (61 : ℤ) := by
    intro c
    by_cases hc : c ∈ claims l
    swap
    · exact ⟨0, fun h => absurd h hc⟩
    obtain ⟨-, -, -, s, hs, hr, e4⟩ := he c hc
    obtain ⟨r, r1, -, -, r2, r3⟩ := rowDot_entries_btw (R := .binary64 ω) (F := fun s => FP.fin (z s))
      (fun s => (s, c) ∈ recorded l) (fun s _ => scL_fp l s c) (H := z) (M := 2 ^ (41 : ℤ))
      (fun k hk => rep64_mul ((hk.trans hS).trans (by norm_num)) (by norm_num) (by norm_num)) (p2_pos _).le
      (fun s hs hr => by
        obtain ⟨-, a1, a2, a3, -⟩ := hz s hs
        refine ⟨?_, a1, a2, a3⟩
        rw [FP.mul_fin, one_mul]; exact a1)
    refine ⟨r, fun _ => ⟨r1, ?_, r2.trans ?_⟩⟩
    · exact ((hz s hs).2.2.2.2 ((hU s hs).2.2.2.2 c hc hr e4)).trans (r3 s hs hr)
    · calc ((sources l).length : ℝ) * 2 ^ (41 : ℤ) ≤ 2 ^ (20 : ℤ) * 2 ^ (41 : ℤ) :=
          mul_le_mul_of_nonneg_right hNS (p2_pos _).le
        _ = 2 ^ (61 : ℤ) := by rw [p2_add]; norm_num
  choose H hH using h8
  have hCC := claimCounts_fp l f (C31_binary64 (ω := ω)) (hC.trans (by norm_num))
  refine ⟨U, H, ?_, ?_, fun s hs => (hU s hs).2.2.1, ?_, fun c hc => (hH c hc).2⟩
  · have e1 : vzip Arith.div ((sources l).map fun s => (FP.fin (T s) : FP (.binary64 ω))) (claimCounts (matsOf l f)) =
        (sources l).map fun s => FP.fin (a s) := by
      unfold vzip
      rw [hCC, List.zipWith_map, List.zipWith_self]
      apply List.map_congr_left
      intro s hs
      exact (ha s hs).1
    have e2 : (matsOf l f).sc.T.mulVec ((sources l).map fun s => (FP.fin (a s) : FP (.binary64 ω))) =
        (claims l).map fun c => FP.fin (inv c) := by
      rw [scT_eq_ofRel, Mat.mulVec_ofRel]
      apply List.map_congr_left
      intro c hc
      exact (hinv c hc).1
    unfold updateTrust
    rw [e1]
    dsimp only
    rw [e2, if_neg]
    · rw [List.map_map, sc_eq_ofRel, Mat.scaleCols_ofRel, Mat.mulVec_ofRel]
      unfold vzip
      rw [List.zipWith_map, List.zipWith_self]
      congr 1
      apply List.map_congr_left
      intro s hs
      exact (hU s hs).1
    · simp only [List.any_map, List.any_eq_true, not_exists, not_and, Function.comp_apply, Bool.not_eq_true]
      intro c hc
      rw [FP.zero_eq]
      show FNum.eq (.fin (inv c)) (.fin 0) = false
      refine decide_eq_false fun h' => (hinvpos c hc).ne' ?_
      simpa [FNum.toEReal] using h'
  · have e1 : vzip Arith.div ((sources l).map fun s => (FP.fin (U s) : FP (.binary64 ω))) (claimCounts (matsOf l f)) =
        (sources l).map fun s => FP.fin (z s) := by
      unfold vzip
      rw [hCC, List.zipWith_map, List.zipWith_self]
      apply List.map_congr_left
      intro s hs
      exact (hz s hs).1
    rw [e1, scT_eq_ofRel, Mat.mulVec_ofRel]
    apply List.map_congr_left
    intro c hc
    exact (hH c hc).1
  · intro c hc
    obtain ⟨-, -, -, s, hs, hr, e4⟩ := he c hc
    exact ⟨s, hs, (hU s hs).2.2.2.2 c hc hr e4⟩

/-- A power with a moderate exponent. -/
theorem pow_btw {g : ℝ} (h0 : 0 < g) (h1 : g ≤ 3 / 2) {y : ℝ} (hl : (2 : ℝ) ^ (-641 : ℤ) ≤ y) (hu : y ≤ 2 ^ (61 : ℤ)) :
    ∃ z, (Arith.pow (FP.fin y) (FP.fin g) : FP (.binary64 ω)) = FP.fin z ∧ Rep (.binary64 ω) z ∧
      (2 : ℝ) ^ (-962 : ℤ) ≤ z ∧ z ≤ 2 ^ (92 : ℤ) := by
  have hy : 0 < y := (p2_pos _).trans_le hl
  have low : (2 : ℝ) ^ (-962 : ℤ) ≤ y ^ g := by
    rcases le_total 1 y with h | h
    · exact (zpow_le_one_of_nonpos₀ one_le_two (by norm_num)).trans (Real.one_le_rpow h h0.le)
    · calc (2 : ℝ) ^ (-962 : ℤ) = 2 ^ (-962 : ℝ) := by rw [← Real.rpow_intCast]; norm_num
        _ ≤ 2 ^ ((-641 : ℝ) * (3 / 2)) := Real.rpow_le_rpow_of_exponent_le one_le_two (by norm_num)
        _ = ((2 : ℝ) ^ (-641 : ℝ)) ^ ((3 : ℝ) / 2) := Real.rpow_mul two_pos.le _ _
        _ = ((2 : ℝ) ^ (-641 : ℤ)) ^ ((3 : ℝ) / 2) := by rw [← Real.rpow_intCast]; norm_num
        _ ≤ y ^ ((3 : ℝ) / 2) := Real.rpow_le_rpow (p2_pos _).le hl (by norm_num)
        _ ≤ y ^ g := Real.rpow_le_rpow_of_exponent_ge hy h h1
  have high : y ^ g ≤ (2 : ℝ) ^ (92 : ℤ) := by
    rcases le_total 1 y with h | h
    · calc y ^ g ≤ y ^ ((3 : ℝ) / 2) := Real.rpow_le_rpow_of_exponent_le h h1
        _ ≤ ((2 : ℝ) ^ (61 : ℤ)) ^ ((3 : ℝ) / 2) := Real.rpow_le_rpow hy.le hu (by norm_num)
        _ = ((2 : ℝ) ^ (61 : ℝ)) ^ ((3 : ℝ) / 2) := by rw [← Real.rpow_intCast]; norm_num
        _ = 2 ^ ((61 : ℝ) * (3 / 2)) := (Real.rpow_mul two_pos.le _ _).symm
        _ ≤ 2 ^ (92 : ℝ) := Real.rpow_le_rpow_of_exponent_le one_le_two (by norm_num)
        _ = (2 : ℝ) ^ (92 : ℤ) := by rw [← Real.rpow_intCast]; norm_num
    · exact (Real.rpow_le_one hy.le h h0.le).trans (one_le_zpow₀ one_le_two (by norm_num))
  obtain ⟨z, hz, zr, z0, z1⟩ := faithful_between ((Rounding.binary64 ω).pow_faithful y g) (rep64_pow (e := -962) (by norm_num) (by norm_num))
    (rep64_pow (e := 92) (by norm_num) (by norm_num)) low high
  refine ⟨z, ?_, zr, z0, z1⟩
  show FNum.pow (.binary64 ω) (.fin y) (.fin g) = .fin z
  simp only [FNum.pow, FNum.powFin]
  rw [if_pos hy]
  exact hz

/-- Investment. -/
theorem invest_normal (f : Option (V → X → X → Option (FP (.binary64 ω)))) (hl : l ≠ []) (hS : (sources l).length ≤ 2 ^ 20)
    (hC : (claims l).length ≤ 2 ^ 20) {g : ℝ} (h0 : 0 < g) (h1 : g ≤ 3 / 2) (T : S → ℝ) (B : V × X → ℝ)
    (hT : ∀ s ∈ sources l, (2 : ℝ) ^ (-600 : ℤ) ≤ T s ∧ T s ≤ 2 ^ (20 : ℤ))
    (hB : ∀ c ∈ claims l, (2 : ℝ) ^ (-600 : ℤ) ≤ B c ∧ B c ≤ 2 ^ (20 : ℤ)) :
    ∃ s, investBody (FP.fin g) (matsOf l f) ((sources l).map fun s => FP.fin (T s)) ((claims l).map fun c => FP.fin (B c)) =
      .ok (some s) ∧ Normal l s.trust s.belief := by
  obtain ⟨U, H, e1, e2, hU, hpos, hH⟩ := invest_returns l f hS hC T B hT hB
  have hp : ∀ c, ∃ z, c ∈ claims l → (Arith.pow (FP.fin (H c)) (FP.fin g) : FP (.binary64 ω)) = FP.fin z ∧
      Rep (.binary64 ω) z ∧ (2 : ℝ) ^ (-962 : ℤ) ≤ z ∧ z ≤ 2 ^ (92 : ℤ) := by
    intro c
    by_cases hc : c ∈ claims l
    · obtain ⟨z, hz⟩ := pow_btw (ω := ω) h0 h1 (hH c hc).1 (hH c hc).2
      exact ⟨z, fun _ => hz⟩
    · exact ⟨0, fun h => absurd h hc⟩
  choose z hz using hp
  obtain ⟨c0, hc0⟩ := List.exists_mem_of_ne_nil _ (claims_ne hl)
  obtain ⟨s0, hs0, hs1⟩ := hpos c0 hc0
  obtain ⟨T1, n1, n2, n3⟩ := normalise_fp (R := .binary64 ω) U hU ⟨s0, hs0, (p2_pos _).trans_le hs1⟩
  obtain ⟨B1, m1, m2, m3⟩ := normalise_fp (R := .binary64 ω) z (fun c hc => (p2_pos _).le.trans (hz c hc).2.2.1)
    ⟨c0, hc0, (p2_pos _).trans_le (hz c0 hc0).2.2.1⟩
  have e3 : ((claims l).map fun c => (FP.fin (H c) : FP (.binary64 ω))).map (Arith.pow · (FP.fin g)) =
      (claims l).map fun c => FP.fin (z c) := by
    rw [List.map_map]
    exact List.map_congr_left fun c hc => (hz c hc).1
  refine ⟨⟨(sources l).map fun s => FP.fin (T1 s), (sources l).map fun s => FP.fin (T s),
    (sources l).map fun s => FP.fin (T1 s), (claims l).map fun c => FP.fin (B1 c)⟩, ?_, T1, B1, rfl, rfl, n2, m2, n3, m3⟩
  unfold investBody
  rw [e1]
  dsimp only
  rw [e2, e3, n1, m1]
  rfl

/-- PooledInvestment. -/
theorem pooled_normal (f : Option (V → X → X → Option (FP (.binary64 ω)))) (hl : l ≠ []) (hS : (sources l).length ≤ 2 ^ 20)
    (hC : (claims l).length ≤ 2 ^ 20) {g : ℝ} (h0 : 0 < g) (h1 : g ≤ 3 / 2) (T : S → ℝ) (B : V × X → ℝ)
    (hT : ∀ s ∈ sources l, (2 : ℝ) ^ (-600 : ℤ) ≤ T s ∧ T s ≤ 2 ^ (20 : ℤ))
    (hB : ∀ c ∈ claims l, (2 : ℝ) ^ (-600 : ℤ) ≤ B c ∧ B c ≤ 2 ^ (20 : ℤ)) :
    ∃ s, pooledBody (FP.fin g) (matsOf l f) ((sources l).map fun s => FP.fin (T s)) ((claims l).map fun c => FP.fin (B c)) =
      .ok (some s) ∧ Normal l s.trust s.belief := by
  obtain ⟨U, H, e1, e2, hU, hpos, hH⟩ := invest_returns l f hS hC T B hT hB
  have hp : ∀ c, ∃ z, c ∈ claims l → (Arith.pow (FP.fin (H c)) (FP.fin g) : FP (.binary64 ω)) = FP.fin z ∧
      Rep (.binary64 ω) z ∧ (2 : ℝ) ^ (-962 : ℤ) ≤ z ∧ z ≤ 2 ^ (92 : ℤ) := by
    intro c
    by_cases hc : c ∈ claims l
    · obtain ⟨z, hz⟩ := pow_btw (ω := ω) h0 h1 (hH c hc).1 (hH c hc).2
      exact ⟨z, fun _ => hz⟩
    · exact ⟨0, fun h => absurd h hc⟩
  choose z hz using hp
  have hNC : ((claims l).length : ℝ) ≤ 2 ^ (20 : ℤ) := by exact_mod_cast hC
  have zpos : ∀ c ∈ claims l, 0 < z c := fun c hc => (p2_pos _).trans_le (hz c hc).2.2.1
  obtain ⟨cm, hcm, hmax⟩ := Finset.exists_max_image (claims l).toFinset z
    (by obtain ⟨c, hc⟩ := List.exists_mem_of_ne_nil _ (claims_ne hl); exact ⟨c, List.mem_toFinset.2 hc⟩)
  rw [List.mem_toFinset] at hcm
  obtain ⟨e, he1, he2⟩ := pow_above (zpos cm hcm)
  have hel : -962 ≤ e := p2_of_le ((hz cm hcm).2.2.1.trans he2)
  have heu : e - 1 ≤ 92 := p2_of_le (he1.trans (hz cm hcm).2.2.2)
  -- the sum of the returns of a variable
  have hp2 : ∀ c, ∃ y, c ∈ claims l → rowDot (claims l) (mxL c) (fun c => (FP.fin (z c) : FP (.binary64 ω))) = FP.fin y ∧
      z c ≤ y ∧ y ≤ 2 ^ (e + 20) := by
    intro c
    by_cases hc : c ∈ claims l
    swap
    · exact ⟨0, fun h => absurd h hc⟩
    obtain ⟨y, y1, -, -, y2, y3⟩ := rowDot_entries_btw (R := .binary64 ω) (F := fun c => FP.fin (z c)) (bs := claims l)
      (g := mxL c) (fun d => c.1 = d.1) (G := fun _ => FP.fin 1)
      (fun d _ => by simp only [mxL, oneIf, FP.one_eq, decide_eq_true_eq]) (H := z) (M := 2 ^ e)
      (fun k hk => rep64_mul ((hk.trans hC).trans (by norm_num)) (by omega) (by omega)) (p2_pos _).le
      (fun d hd _ => by
        obtain ⟨-, a1, a2, -⟩ := hz d hd
        refine ⟨?_, a1, (p2_pos _).le.trans a2, (hmax d (List.mem_toFinset.2 hd)).trans he2⟩
        rw [FP.mul_fin, one_mul]; exact a1)
    refine ⟨y, fun _ => ⟨y1, y3 c hc rfl, y2.trans ?_⟩⟩
    calc ((claims l).length : ℝ) * 2 ^ e ≤ 2 ^ (20 : ℤ) * 2 ^ e := mul_le_mul_of_nonneg_right hNC (p2_pos _).le
      _ = 2 ^ (e + 20) := by rw [p2_add, add_comm]
  choose y hy using hp2
  have hp3 : ∀ c, ∃ q, c ∈ claims l → (FP.fin (z c) /. FP.fin (y c) : FP (.binary64 ω)) = FP.fin q ∧ 0 ≤ q ∧ q ≤ 1 ∧
      (c = cm → (2 : ℝ) ^ (-21 : ℤ) ≤ q) := by
    intro c
    by_cases hc : c ∈ claims l
    swap
    · exact ⟨0, fun h => absurd h hc⟩
    obtain ⟨-, y1, y2⟩ := hy c hc
    have ypos := (zpos c hc).trans_le y1
    have hle : z c / y c ≤ 1 := (div_le_one ypos).2 y1
    obtain ⟨q, hq, -, q0, q1⟩ := rnd_between (R := .binary64 ω) rep_zero rep_one (div_nonneg (zpos c hc).le ypos.le) hle
    refine ⟨q, fun _ => ⟨?_, q0, q1, ?_⟩⟩
    · rw [FP.div_fin _ ypos.ne']; exact hq
    · rintro rfl
      have hlow : (2 : ℝ) ^ (-21 : ℤ) ≤ z c / y c := by
        rw [le_div_iff₀ ypos]
        calc (2 : ℝ) ^ (-21 : ℤ) * y c ≤ 2 ^ (-21 : ℤ) * 2 ^ (e + 20) := mul_le_mul_of_nonneg_left y2 (p2_pos _).le
          _ = 2 ^ (e - 1) := by rw [p2_add]; congr 1; omega
          _ ≤ z c := he1
      obtain ⟨q', hq', -, hl', -⟩ := rnd_between (R := .binary64 ω) (rep64_pow (e := -21) (by norm_num) (by norm_num))
        rep_one hlow hle
      obtain rfl : q = q' := by rw [hq] at hq'; injection hq'
      exact hl'
  choose q hq using hp3
  have hp4 : ∀ c, ∃ b, c ∈ claims l → (FP.fin (H c) *. FP.fin (q c) : FP (.binary64 ω)) = FP.fin b ∧ 0 ≤ b ∧
      (c = cm → (2 : ℝ) ^ (-662 : ℤ) ≤ b) := by
    intro c
    by_cases hc : c ∈ claims l
    swap
    · exact ⟨0, fun h => absurd h hc⟩
    obtain ⟨-, q0, q1, q2⟩ := hq c hc
    obtain ⟨x0, x1⟩ := hH c hc
    have xpos := (p2_pos _).trans_le x0
    have hle : H c * q c ≤ 2 ^ (61 : ℤ) := (mul_le_of_le_one_right xpos.le q1).trans x1
    obtain ⟨b, hb, -, b0, -⟩ := rnd_between (R := .binary64 ω) rep_zero (rep64_pow (e := 61) (by norm_num) (by norm_num))
      (mul_nonneg xpos.le q0) hle
    refine ⟨b, fun _ => ⟨by rw [FP.mul_fin]; exact hb, b0, fun h => ?_⟩⟩
    have hlow : (2 : ℝ) ^ (-662 : ℤ) ≤ H c * q c := by
      calc (2 : ℝ) ^ (-662 : ℤ) = 2 ^ (-641 : ℤ) * 2 ^ (-21 : ℤ) := by rw [p2_add]; norm_num
        _ ≤ H c * q c := mul_le_mul x0 (q2 h) (p2_pos _).le xpos.le
    obtain ⟨b', hb', -, hl', -⟩ := rnd_between (R := .binary64 ω) (rep64_pow (e := -662) (by norm_num) (by norm_num))
      (rep64_pow (e := 61) (by norm_num) (by norm_num)) hlow hle
    obtain rfl : b = b' := by rw [hb] at hb'; injection hb'
    exact hl'
  choose b hb using hp4
  obtain ⟨s0, hs0, hs1⟩ := hpos cm hcm
  obtain ⟨T1, n1, n2, n3⟩ := normalise_fp (R := .binary64 ω) U hU ⟨s0, hs0, (p2_pos _).trans_le hs1⟩
  obtain ⟨B1, m1, m2, m3⟩ := normalise_fp (R := .binary64 ω) b (fun c hc => (hb c hc).2.1)
    ⟨cm, hcm, (p2_pos _).trans_le ((hb cm hcm).2.2 rfl)⟩
  have e3 : ((claims l).map fun c => (FP.fin (H c) : FP (.binary64 ω))).map (Arith.pow · (FP.fin g)) =
      (claims l).map fun c => FP.fin (z c) := by
    rw [List.map_map]
    exact List.map_congr_left fun c hc => (hz c hc).1
  have e4 : (matsOf l f).mutEx.mulVec ((claims l).map fun c => (FP.fin (z c) : FP (.binary64 ω))) =
      (claims l).map fun c => FP.fin (y c) := by
    rw [mutEx_eq_ofRel, Mat.mulVec_ofRel]
    exact List.map_congr_left fun c hc => (hy c hc).1
  have e5 : vzip Arith.mul ((claims l).map fun c => (FP.fin (H c) : FP (.binary64 ω)))
      (vzip Arith.div ((claims l).map fun c => FP.fin (z c)) ((claims l).map fun c => FP.fin (y c))) =
      (claims l).map fun c => FP.fin (b c) := by
    unfold vzip
    rw [List.zipWith_map, List.zipWith_self, List.zipWith_map, List.zipWith_self]
    refine List.map_congr_left fun c hc => ?_
    rw [(hq c hc).1]
    exact (hb c hc).1
  refine ⟨⟨(sources l).map fun s => FP.fin (T1 s), (sources l).map fun s => FP.fin (T s),
    (sources l).map fun s => FP.fin (T1 s), (claims l).map fun c => FP.fin (B1 c)⟩, ?_, T1, B1, rfl, rfl, n2, m2, n3, m3⟩
  unfold pooledBody
  rw [e1]
  dsimp only
  rw [e2, e3, e4, e5, n1, m1]
  rfl

end
end TD
