import Verif.Lemmas.Rate
import Verif.Props.SameIterations
/-!
# C101: how many iterations Sums and AverageLog need

C39 and C89 say that the convergence iterator stops. Here is a bound on the number of iterations that depends only on the sizes of
the input: the trust scores change by at most a constant divided by the number of iterations so far.
-/

namespace TD
open Spec Double Ex
attribute [-instance] instBEqProd
variable {S V X : Type} [DecidableEq S] [DecidableEq V] [DecidableEq X] {ω : Platform}

/-- **C101.** In exact arithmetic the trust scores of Sums change in iteration `k + 2` by at most the stated constant divided by `k + 1`,
where no source has more than `a` claims. -/
theorem C101_sums_rate (l : List (S × V × X)) (hl : l ≠ []) (p : Prior) (m : Measure) {a : Nat}
    (ha : ∀ s, (claimsOf l s).card ≤ a) (k : Nat) :
    stepChange m l (sumsStep l) ((fun _ => 0), priorOf l p) (k + 1) ≤
      spread m (allSources l).card * (2 * (allSources l).card * Real.sqrt (a * (allClaims l).card)) / (k + 1) :=
  sums_change hl p ha m k

/-- **C101.** The same for AverageLog. -/
theorem C101_average_log_rate (l : List (S × V × X)) (hl2 : ∃ s, 2 ≤ (claimsOf l s).card) (p : Prior) (m : Measure) (k : Nat) :
    stepChange m l (avlogStep l) ((fun _ => 0), priorOf l p) (k + 1) ≤
      spread m (allSources l).card * (4 * (allSources l).card * Real.sqrt (allClaims l).card) / (k + 1) :=
  avlog_change hl2 p m k

/-- **C101.** Sums with a convergence iterator succeeds with at most `N` iterations, whatever the measure and the prior, once `N - 1` times
the threshold exceeds the stated constant and the limit allows `N` iterations. -/
theorem C101_sums (l : List (S × V × X)) (am : Bool) (f : Option (V → X → X → Option Ex))
    (d : Dataset S V X Ex) (h : Dataset.mk' l am f = .ok d) (hl : l ≠ []) (p : Prior) (m : Measure) {a : Nat}
    (ha : ∀ s, (claimsOf l s).card ≤ a) (th : ℝ) (N : Nat)
    (hN : spread m (allSources l).card * (2 * (allSources l).card * Real.sqrt (a * (allClaims l).card)) < th * ((N : ℝ) - 1))
    (hN2 : 2 ≤ N) (lim : Int) (hlim : (N : Int) ≤ lim) (fuel : Nat) (hfuel : N < fuel) (clock : Nat → Ex) (st : IterState Ex) :
    ∃ r k, (⟨.sums, .conv (some m) (Ex.fin th) lim, some p⟩ : AlgCfg Ex).run d fuel clock st = .ok r ∧
      r.iterations = some k ∧ k ≤ N := by
  obtain rfl := mk'_ex h
  obtain ⟨K, rfl⟩ : ∃ K, N = K + 2 := ⟨N - 2, by omega⟩
  have hlast : stepChange m l (sumsStep l) ((fun _ => 0), priorOf l p) (K + 1) < th := by
    refine (sums_change hl p ha m K).trans_lt ?_
    rw [div_lt_iff₀ (by positivity)]
    push_cast at hN
    linarith
  obtain ⟨k, h1, h2⟩ := exists_first (P := fun j => stepChange m l (sumsStep l) ((fun _ => 0), priorOf l p) j < th) ⟨_, hlast⟩
  have hk : k ≤ K + 1 := by
    by_contra hcon
    exact h2 _ (by omega) hlast
  obtain ⟨r, hr, hit⟩ := exact_runs (sums_implements f hl (.conv (some m) (Ex.fin th) lim) p) hl rfl (fun q => .inl rfl)
    (fun _ _ => rfl) h1 (fun j hj => not_lt.1 (h2 j hj)) (by omega) (fuel := fuel) (by omega) clock st
  exact ⟨r, k + 1, hr, hit, by omega⟩

/-- **C101.** The same for AverageLog. -/
theorem C101_average_log (l : List (S × V × X)) (am : Bool) (f : Option (V → X → X → Option Ex))
    (d : Dataset S V X Ex) (h : Dataset.mk' l am f = .ok d) (hl2 : ∃ s, 2 ≤ (claimsOf l s).card) (p : Prior) (m : Measure)
    (th : ℝ) (N : Nat)
    (hN : spread m (allSources l).card * (4 * (allSources l).card * Real.sqrt (allClaims l).card) < th * ((N : ℝ) - 1))
    (hN2 : 2 ≤ N) (lim : Int) (hlim : (N : Int) ≤ lim) (fuel : Nat) (hfuel : N < fuel) (clock : Nat → Ex) (st : IterState Ex) :
    ∃ r k, (⟨.averageLog, .conv (some m) (Ex.fin th) lim, some p⟩ : AlgCfg Ex).run d fuel clock st = .ok r ∧
      r.iterations = some k ∧ k ≤ N := by
  obtain rfl := mk'_ex h
  have hl : l ≠ [] := by
    rintro rfl
    obtain ⟨s, hs⟩ := hl2
    have : claimsOf ([] : List (S × V × X)) s = ∅ := rfl
    rw [this] at hs
    simp at hs
  obtain ⟨K, rfl⟩ : ∃ K, N = K + 2 := ⟨N - 2, by omega⟩
  have hlast : stepChange m l (avlogStep l) ((fun _ => 0), priorOf l p) (K + 1) < th := by
    refine (avlog_change hl2 p m K).trans_lt ?_
    rw [div_lt_iff₀ (by positivity)]
    push_cast at hN
    linarith
  obtain ⟨k, h1, h2⟩ := exists_first (P := fun j => stepChange m l (avlogStep l) ((fun _ => 0), priorOf l p) j < th) ⟨_, hlast⟩
  have hk : k ≤ K + 1 := by
    by_contra hcon
    exact h2 _ (by omega) hlast
  obtain ⟨r, hr, hit⟩ := exact_runs (avlog_implements f (.conv (some m) (Ex.fin th) lim) p hl2) hl rfl (fun q => .inr rfl)
    (fun _ _ => rfl) h1 (fun j hj => not_lt.1 (h2 j hj)) (by omega) (fuel := fuel) (by omega) clock st
  exact ⟨r, k + 1, hr, hit, by omega⟩

theorem spread_le (m : Measure) {n : Nat} (hn : 1 ≤ n) : spread m n ≤ n := by
  have h : (1 : ℝ) ≤ n := by exact_mod_cast hn
  cases m with
  | l1 => exact le_rfl
  | l2 =>
    show Real.sqrt n ≤ n
    rw [Real.sqrt_le_left (by linarith)]
    nlinarith
  | lInf => exact h
  | cosine => exact le_rfl

theorem mul_sqrt_lt {n x : ℝ} (hn : 0 ≤ n) (hx : 0 ≤ x) (h : 4 * n ^ 4 * x ≤ 9900) : n * (2 * n * Real.sqrt x) < 1 / 10000 * ((1000000 : ℝ) - 1) := by
  have h1 : (n * (2 * n * Real.sqrt x)) ^ 2 ≤ 9900 := by
    have : (n * (2 * n * Real.sqrt x)) ^ 2 = 4 * n ^ 4 * x := by
      have := Real.sq_sqrt hx
      calc (n * (2 * n * Real.sqrt x)) ^ 2 = 4 * n ^ 4 * (Real.sqrt x ^ 2) := by ring
        _ = _ := by rw [this]
    rw [this]; exact h
  have h2 : n * (2 * n * Real.sqrt x) ≤ 99.9 := by
    refine le_of_sq_le_sq ?_ (by norm_num)
    refine h1.trans (by norm_num)
  refine h2.trans_lt (by norm_num)

/-- **C101.** With the threshold 0.0001 and the limit of a million iterations that are the defaults of the convergence iterator, Sums
does not raise `ConvergenceError` on a small input, whatever the measure and the prior. -/
theorem C101_sums_default (l : List (S × V × X)) (am : Bool) (f : Option (V → X → X → Option Ex))
    (d : Dataset S V X Ex) (h : Dataset.mk' l am f = .ok d) (hl : l ≠ []) (p : Prior) (m : Measure) {a : Nat}
    (ha : ∀ s, (claimsOf l s).card ≤ a) (hsmall : 4 * (allSources l).card ^ 4 * (a * (allClaims l).card) ≤ 9900)
    (fuel : Nat) (hfuel : 1000000 < fuel) (clock : Nat → Ex) (st : IterState Ex) :
    ∃ r k, (⟨.sums, mkConv (some m) none none, some p⟩ : AlgCfg Ex).run d fuel clock st = .ok r ∧
      r.iterations = some k ∧ k ≤ 1000000 := by
  have hn := (allSources_nonempty hl).card_pos
  have e : (mkConv (some m) none none : IterCfg Ex) = .conv (some m) (Ex.fin (1 / 10000)) 1000000 := by
    simp only [mkConv, Option.getD_none, Ex.lit_eq]
    norm_num
  rw [e]
  refine C101_sums l am f d h hl p m ha (1 / 10000) 1000000 ?_ (by norm_num) 1000000 le_rfl fuel hfuel clock st
  refine (mul_le_mul_of_nonneg_right (spread_le m hn) (by positivity)).trans_lt ?_
  push_cast
  exact mul_sqrt_lt (Nat.cast_nonneg _) (by positivity) (by exact_mod_cast hsmall)

/-- **C101.** The same for AverageLog. -/
theorem C101_average_log_default (l : List (S × V × X)) (am : Bool) (f : Option (V → X → X → Option Ex))
    (d : Dataset S V X Ex) (h : Dataset.mk' l am f = .ok d) (hl2 : ∃ s, 2 ≤ (claimsOf l s).card) (p : Prior) (m : Measure)
    (hsmall : 16 * (allSources l).card ^ 4 * (allClaims l).card ≤ 9900)
    (fuel : Nat) (hfuel : 1000000 < fuel) (clock : Nat → Ex) (st : IterState Ex) :
    ∃ r k, (⟨.averageLog, mkConv (some m) none none, some p⟩ : AlgCfg Ex).run d fuel clock st = .ok r ∧
      r.iterations = some k ∧ k ≤ 1000000 := by
  have hn : 1 ≤ (allSources l).card := by
    obtain ⟨s, hs⟩ := hl2
    exact Finset.card_pos.2 ⟨s, (mem_allSources l).2 (multi_mem hs)⟩
  have e : (mkConv (some m) none none : IterCfg Ex) = .conv (some m) (Ex.fin (1 / 10000)) 1000000 := by
    simp only [mkConv, Option.getD_none, Ex.lit_eq]
    norm_num
  rw [e]
  refine C101_average_log l am f d h hl2 p m (1 / 10000) 1000000 ?_ (by norm_num) 1000000 le_rfl fuel hfuel clock st
  refine (mul_le_mul_of_nonneg_right (spread_le m hn) (by positivity)).trans_lt ?_
  have h1 : 4 * ((allSources l).card : ℝ) * Real.sqrt (allClaims l).card =
      2 * ((allSources l).card : ℝ) * Real.sqrt (4 * (allClaims l).card) := by
    rw [Real.sqrt_mul (by norm_num), show (4 : ℝ) = 2 ^ 2 by norm_num, Real.sqrt_sq (by norm_num)]
    ring
  rw [h1]
  push_cast
  refine mul_sqrt_lt (Nat.cast_nonneg _) (by positivity) ?_
  have : (16 : ℝ) * ((allSources l).card : ℝ) ^ 4 * (allClaims l).card ≤ 9900 := by exact_mod_cast hsmall
  linarith

/-- **C101.** In double precision: Sums succeeds with at most `N` iterations if the threshold exceeds the
constant divided by `N - 1` by more than the error of the computed distances. -/
theorem C101_sums_double (l : List (S × V × X)) (am : Bool) (f : Option (V → X → X → Option (FP (.binary64 ω))))
    (d : Dataset S V X (FP (.binary64 ω))) (h : Dataset.mk' l am f = .ok d)
    (hl : l ≠ []) {a b w : Nat} (hsize : Sizes l a b w) (p : Prior) (m : Measure) (th : ℝ) (N : Nat)
    (hN2 : 2 ≤ N) (hw : 53 + (N + 1) * w ≤ 1022) (hq : N * (a + b + 1) + 1 ≤ 2 ^ 51)
    (hN : spread m (allSources l).card * (2 * (allSources l).card * Real.sqrt (a * (allClaims l).card)) / ((N : ℝ) - 1) <
      th - blur m l (N * (a + b + 1) + 1))
    (lim : Int) (hlim : (N : Int) ≤ lim) (fuel : Nat) (hfuel : N < fuel) (clock : Nat → FP (.binary64 ω))
    (st : IterState (FP (.binary64 ω))) :
    ∃ r k, (⟨.sums, .conv (some m) (FP.fin th) lim, some p⟩ : AlgCfg (FP (.binary64 ω))).run d fuel clock st = .ok r ∧
      r.iterations = some k ∧ k ≤ N := by
  refine (C100_sums_any l am f d h hl hsize p m th lim fuel clock st).2 N (by omega) hw hq ?_ hlim hfuel
  obtain ⟨K, rfl⟩ : ∃ K, N = K + 2 := ⟨N - 2, by omega⟩
  refine ((C101_sums_rate l hl p m hsize.perSource K)).trans_lt (lt_of_eq_of_lt ?_ hN)
  push_cast
  congr 1
  ring

/-- **C101.** The same for AverageLog in double precision. -/
theorem C101_average_log_double (l : List (S × V × X)) (am : Bool) (f : Option (V → X → X → Option (FP (.binary64 ω))))
    (d : Dataset S V X (FP (.binary64 ω))) (h : Dataset.mk' l am f = .ok d)
    (hl2 : ∃ s, 2 ≤ (claimsOf l s).card) {a b w : Nat} (hsize : Sizes l a b w) (hw53 : w ≤ 53) (p : Prior) (m : Measure)
    (th : ℝ) (N : Nat)
    (hN2 : 2 ≤ N) (hw : 53 + w + N * (2 * w + 1) ≤ 1022) (hq : N * (a + b + 5) + 1 ≤ 2 ^ 51)
    (hN : spread m (allSources l).card * (4 * (allSources l).card * Real.sqrt (allClaims l).card) / ((N : ℝ) - 1) <
      th - blur m l (N * (a + b + 5) + 1))
    (lim : Int) (hlim : (N : Int) ≤ lim) (fuel : Nat) (hfuel : N < fuel) (clock : Nat → FP (.binary64 ω))
    (st : IterState (FP (.binary64 ω))) :
    ∃ r k, (⟨.averageLog, .conv (some m) (FP.fin th) lim, some p⟩ : AlgCfg (FP (.binary64 ω))).run d fuel clock st = .ok r ∧
      r.iterations = some k ∧ k ≤ N := by
  refine (C100_average_log_any l am f d h hl2 hsize hw53 p m th lim fuel clock st).2 N (by omega) hw hq ?_ hlim hfuel
  obtain ⟨K, rfl⟩ : ∃ K, N = K + 2 := ⟨N - 2, by omega⟩
  refine ((C101_average_log_rate l hl2 p m K)).trans_lt (lt_of_eq_of_lt ?_ hN)
  push_cast
  congr 1
  ring

namespace Rate
open SameIterations

/-- The hypotheses are met: three sources, two of which agree, with the default iterator. -/
example (clock : Nat → Ex) (m : Measure) (p : Prior) : ∃ (d : Dataset Nat Nat Nat Ex) (r : Result Nat Nat Nat Ex) (k : Nat),
    Dataset.mk' triples false none = .ok d ∧
    (⟨.sums, mkConv (some m) none none, some p⟩ : AlgCfg Ex).run d 2000000 clock = .ok r ∧
    r.iterations = some k ∧ k ≤ 1000000 := by
  have hd := (mk'_ok_iff triples ex_one_ne_zero false none _).2
    ⟨rfl, .inr (by simp [triples, NoRepeats]), by simp [optImpBad]⟩
  obtain ⟨r, k, h⟩ := C101_sums_default triples false none _ hd (by simp [triples]) p m sizes.perSource (by decide)
    2000000 (by norm_num) clock {}
  exact ⟨_, r, k, hd, h⟩

/-- Two sources with two claims each, agreeing on one of them. -/
def pair : List (Nat × Nat × Nat) := [(0, 0, 1), (0, 1, 1), (1, 0, 1), (1, 1, 2)]

/-- The hypotheses are met for AverageLog too. -/
example (clock : Nat → Ex) (m : Measure) (p : Prior) : ∃ (d : Dataset Nat Nat Nat Ex) (r : Result Nat Nat Nat Ex) (k : Nat),
    Dataset.mk' pair false none = .ok d ∧
    (⟨.averageLog, mkConv (some m) none none, some p⟩ : AlgCfg Ex).run d 2000000 clock = .ok r ∧
    r.iterations = some k ∧ k ≤ 1000000 := by
  have hd := (mk'_ok_iff pair ex_one_ne_zero false none _).2
    ⟨rfl, .inr (by simp [pair, NoRepeats]), by simp [optImpBad]⟩
  obtain ⟨r, k, h⟩ := C101_average_log_default pair false none _ hd ⟨0, by decide⟩ p m (by decide)
    2000000 (by norm_num) clock {}
  exact ⟨_, r, k, hd, h⟩

/-- In double precision, with the threshold 1/5: at most 100 iterations on the three sources, measured by L_INF. -/
example (clock : Nat → FP (.binary64 ω)) (p : Prior) : ∃ (d : Dataset Nat Nat Nat (FP (.binary64 ω)))
    (r : Result Nat Nat Nat (FP (.binary64 ω))) (k : Nat), Dataset.mk' triples false none = .ok d ∧
    (⟨.sums, .conv (some .lInf) (FP.fin (1 / 5)) 1000, some p⟩ : AlgCfg (FP (.binary64 ω))).run d 1001 clock = .ok r ∧
    r.iterations = some k ∧ k ≤ 100 := by
  have hd := (mk'_ok_iff triples (one_ne_zero_fp (R := .binary64 ω)) false none _).2
    ⟨rfl, .inr (by simp [triples, NoRepeats]), by simp [optImpBad]⟩
  have hN : spread .lInf (allSources triples).card * (2 * (allSources triples).card * Real.sqrt ((1 : Nat) * (allClaims triples).card)) /
      (((100 : Nat) : ℝ) - 1) < 1 / 5 - blur .lInf triples (100 * (1 + 2 + 1) + 1) := by
    have e1 : (allSources triples).card = 3 := by decide
    have e2 : (allClaims triples).card = 2 := by decide
    simp only [spread, blur, e1, e2]
    have : Real.sqrt ((1 : Nat) * (2 : Nat)) ≤ 2 := by
      rw [Real.sqrt_le_left (by norm_num)]; norm_num
    push_cast at this ⊢
    have h3 : 1 * (2 * 3 * Real.sqrt (1 * 2)) / ((100 : ℝ) - 1) ≤ 12 / 99 := by
      have : 1 * (2 * 3 * Real.sqrt (1 * 2)) ≤ 12 := by linarith
      refine (div_le_div_of_nonneg_right this (by norm_num)).trans (le_of_eq (by norm_num))
    refine h3.trans_lt ?_
    norm_num
  obtain ⟨r, k, h⟩ := C101_sums_double triples false none _ hd (by simp [triples]) sizes p .lInf (1 / 5) 100
    (by norm_num) (by norm_num) (by norm_num) hN 1000 (by norm_num) 1001 (by norm_num) clock {}
  exact ⟨_, r, k, hd, h⟩

/-- In double precision, with the threshold 1/2: at most 100 iterations on the three sources, measured by the cosine. -/
example (clock : Nat → FP (.binary64 ω)) (p : Prior) : ∃ (d : Dataset Nat Nat Nat (FP (.binary64 ω)))
    (r : Result Nat Nat Nat (FP (.binary64 ω))) (k : Nat), Dataset.mk' triples false none = .ok d ∧
    (⟨.sums, .conv (some .cosine) (FP.fin (1 / 2)) 1000, some p⟩ : AlgCfg (FP (.binary64 ω))).run d 1001 clock = .ok r ∧
    r.iterations = some k ∧ k ≤ 100 := by
  have hd := (mk'_ok_iff triples (one_ne_zero_fp (R := .binary64 ω)) false none _).2
    ⟨rfl, .inr (by simp [triples, NoRepeats]), by simp [optImpBad]⟩
  have hN : spread .cosine (allSources triples).card * (2 * (allSources triples).card * Real.sqrt ((1 : Nat) * (allClaims triples).card)) /
      (((100 : Nat) : ℝ) - 1) < 1 / 2 - blur .cosine triples (100 * (1 + 2 + 1) + 1) := by
    have e1 : (allSources triples).card = 3 := by decide
    have e2 : (allClaims triples).card = 2 := by decide
    simp only [spread, blur, e1, e2]
    have : Real.sqrt ((1 : Nat) * (2 : Nat)) ≤ 2 := by
      rw [Real.sqrt_le_left (by norm_num)]; norm_num
    push_cast at this ⊢
    have h3 : 3 * (2 * 3 * Real.sqrt (1 * 2)) / ((100 : ℝ) - 1) ≤ 36 / 99 := by
      have : 3 * (2 * 3 * Real.sqrt (1 * 2)) ≤ 36 := by linarith
      refine (div_le_div_of_nonneg_right this (by norm_num)).trans (le_of_eq (by norm_num))
    refine h3.trans_lt ?_
    norm_num
  obtain ⟨r, k, h⟩ := C101_sums_double triples false none _ hd (by simp [triples]) sizes p .cosine (1 / 2) 100
    (by norm_num) (by norm_num) (by norm_num) hN 1000 (by norm_num) 1001 (by norm_num) clock {}
  exact ⟨_, r, k, hd, h⟩

end Rate
end TD
