import Verif.Spec.Close
import Verif.Lemmas.Precision
import Verif.Props.Algorithms
import Verif.Props.Results
import Verif.Props.Support
import Verif.Props.AccuracyRuns
/-!
# C99: How accurate Sums, AverageLog and voting are in double precision
-/

namespace TD
open Spec Double
attribute [-instance] instBEqProd
variable {S V X : Type} [DecidableEq S] [DecidableEq V] [DecidableEq X] {ω : Platform}

/-- The prior beliefs are rounded once. -/
theorem prior_rnd (l : List (S × V × X)) (f : Option (V → X → X → Option (FP (.binary64 ω)))) (hl : l ≠ [])
    (hS : (sources l).length * (claims l).length ≤ 2 ^ 53) (p : Prior) :
    priorBeliefs (some p) (matsOf l f) = .ok ((claims l).map fun c => (Rounding.binary64 ω).rnd (priorOf l p c)) ∧
      ∀ c ∈ claims l, Away 53 (priorOf l p c) ∧ 0 < priorOf l p c ∧ priorOf l p c ≤ (sources l).length := by
  obtain ⟨c0, hc0⟩ := List.exists_mem_of_ne_nil _ (claims_ne hl)
  have hC1 : 1 ≤ (claims l).length := List.length_pos_of_mem hc0
  have hS1 : 1 ≤ (sources l).length := List.length_pos_iff.2 (sources_ne hl)
  have hSN : (sources l).length ≤ 2 ^ 53 := le_trans (Nat.le_mul_of_pos_right _ hC1) hS
  have hCN : (claims l).length ≤ 2 ^ 53 := le_trans (Nat.le_mul_of_pos_left _ hS1) hS
  have hS1' : (1 : ℝ) ≤ (sources l).length := by exact_mod_cast hS1
  have hcnt : ∀ c ∈ claims l, 0 < (sourcesOf l c).card := fun c hc => (sourcesOf_nonempty l hc).card_pos
  have e53 : (2 : ℝ) ^ (-((53 : Nat) : ℤ)) = 1 / 2 ^ 53 := by rw [zpow_neg, one_div]; norm_num
  have hq : ∀ x : ℝ, 1 / 2 ^ 53 ≤ x → x ≤ (sources l).length →
      Away 53 x ∧ 0 < x ∧ x ≤ (sources l).length := fun x h1 h2 =>
    ⟨.inr (by rw [e53]; exact h1), lt_of_lt_of_le (by positivity) h1, h2⟩
  cases p with
  | fixed =>
    refine ⟨?_, fun c hc => hq _ (by norm_num [priorOf, priorFixed]) (by
      have : priorOf l .fixed c = 1 / 2 := rfl
      rw [this]; linarith)⟩
    show Except.ok (List.replicate (claims l).length (Arith.lit 1 2 : FP (.binary64 ω))) =
      Except.ok ((claims l).map fun _ => (Rounding.binary64 ω).rnd (1 / 2))
    rw [List.map_const', FP.lit_eq]
    norm_num only [Nat.cast_ofNat, Nat.cast_one]
    rfl
  | count =>
    refine ⟨?_, fun c hc => hq _ ?_ ?_⟩
    · show Except.ok _ = _
      rw [sourceCounts_fp l f C31_binary64 hSN]
      congr 1
      apply List.map_congr_left
      intro c _
      exact (rep64_nat ((card_sourcesOf_le l c).trans hSN)).symm
    · have : (1 : ℝ) ≤ (sourcesOf l c).card := by exact_mod_cast hcnt c hc
      exact le_trans (by norm_num) this
    · show ((sourcesOf l c).card : ℝ) ≤ _
      exact_mod_cast card_sourcesOf_le l c
  | uniform =>
    have h0 : ∀ c ∈ claims l, (1 : ℝ) ≤ (rivals l c).card := fun c hc => by
      exact_mod_cast Finset.card_pos.2 ⟨c, self_mem_rivals l hc⟩
    refine ⟨?_, fun c hc => hq _ ?_ ?_⟩
    · show Except.ok _ = _
      have e : (ones (matsOf l f).numClaims : Vec (FP (.binary64 ω))) = (claims l).map fun _ => FP.fin ((1 : Nat) : ℝ) := by
        show (ones (claims l).length : Vec (FP (.binary64 ω))) = _
        rw [ones_eq]
        simp only [FP.one_eq, Nat.cast_one]
      have hr : ∀ c, ∑ d ∈ rivals l c, 1 = (rivals l c).card := fun c => by simp
      rw [e, mutEx_mulVec_fp l f C31_binary64 (fun _ => 1) fun c _ => by rw [hr]; exact (card_rivals_le l c).trans hCN]
      rw [List.map_map]
      congr 1
      apply List.map_congr_left
      intro c hc
      simp only [Function.comp_apply]
      rw [hr, FP.one_eq, FP.div_fin _ (by linarith [h0 c hc])]
      rfl
    · show 1 / 2 ^ 53 ≤ 1 / ((rivals l c).card : ℝ)
      refine one_div_le_one_div_of_le (by linarith [h0 c hc]) ?_
      exact_mod_cast (card_rivals_le l c).trans hCN
    · show 1 / ((rivals l c).card : ℝ) ≤ _
      exact le_trans ((div_le_one (by linarith [h0 c hc])).2 (h0 c hc)) hS1'
  | voted =>
    have hsum : ∀ c, ∑ d ∈ rivals l c, (sourcesOf l d).card ≤ 2 ^ 53 := by
      intro c
      calc ∑ d ∈ rivals l c, (sourcesOf l d).card ≤ ∑ d ∈ rivals l c, (sources l).length :=
            Finset.sum_le_sum fun d _ => card_sourcesOf_le l d
        _ = (rivals l c).card * (sources l).length := by rw [Finset.sum_const, smul_eq_mul]
        _ ≤ (claims l).length * (sources l).length := Nat.mul_le_mul_right _ (card_rivals_le l c)
        _ ≤ 2 ^ 53 := by rw [mul_comm]; exact hS
    have hge : ∀ c ∈ claims l, (sourcesOf l c).card ≤ ∑ d ∈ rivals l c, (sourcesOf l d).card := fun c hc =>
      Finset.single_le_sum (f := fun d => (sourcesOf l d).card) (fun _ _ => Nat.zero_le _) (self_mem_rivals l hc)
    have hv : ∀ c, priorOf l .voted c = (sourcesOf l c).card / (∑ d ∈ rivals l c, (sourcesOf l d).card : Nat) := by
      intro c
      show nSources l c / ∑ d ∈ rivals l c, nSources l d = _
      unfold nSources
      push_cast
      rfl
    refine ⟨?_, fun c hc => ?_⟩
    · show Except.ok _ = _
      rw [sourceCounts_fp l f C31_binary64 hSN, mutEx_mulVec_fp l f C31_binary64 (fun c => (sourcesOf l c).card) fun c _ => hsum c]
      unfold vzip
      rw [List.zipWith_map, List.zipWith_self]
      congr 1
      apply List.map_congr_left
      intro c hc
      have := (hcnt c hc).trans_le (hge c hc)
      rw [FP.div_fin _ (by exact_mod_cast this.ne'), hv]
    · have h1 : (1 : ℝ) ≤ (sourcesOf l c).card := by exact_mod_cast hcnt c hc
      have h2 : ((sourcesOf l c).card : ℝ) ≤ (∑ d ∈ rivals l c, (sourcesOf l d).card : Nat) := by
        exact_mod_cast hge c hc
      have h3 : ((∑ d ∈ rivals l c, (sourcesOf l d).card : Nat) : ℝ) ≤ 2 ^ 53 := by exact_mod_cast hsum c
      rw [hv]
      refine hq _ ?_ ?_
      · exact div_le_div₀ (by linarith) h1 (by linarith) h3
      · exact le_trans ((div_le_one (by linarith)).2 h2) hS1'

theorem prior_in (l : List (S × V × X)) (f : Option (V → X → X → Option (FP (.binary64 ω)))) (hl : l ≠ [])
    (hS : (sources l).length * (claims l).length ≤ 2 ^ 53) (p : Prior) (Q : S → Prop) (hQ : ∃ s ∈ sources l, Q s) :
    ∃ b, priorBeliefs (some p) (matsOf l f) = .ok b ∧
      AccIn l ω Q 53 1 (sources l).length ((fun _ => 0), priorOf l p) b := by
  obtain ⟨e, h⟩ := prior_rnd (ω := ω) l f hl hS p
  obtain ⟨c0, hc0⟩ := List.exists_mem_of_ne_nil _ (claims_ne hl)
  have hC1 : 1 ≤ (claims l).length := List.length_pos_of_mem hc0
  have hSN : (sources l).length ≤ 2 ^ 53 := le_trans (Nat.le_mul_of_pos_right _ hC1) hS
  have h1 : ∀ c, ∃ y, c ∈ claims l → (Rounding.binary64 ω).rnd (priorOf l p c) = .fin y ∧ Rep (.binary64 ω) y ∧
      Near 1 (priorOf l p c) y ∧ Away 53 y ∧ y ≤ (sources l).length := by
    intro c
    by_cases hc : c ∈ claims l
    · obtain ⟨y, hy⟩ := near_rnd (ω := ω) (by norm_num) (h c hc).1 (rep_nat_bound hSN).1 (h c hc).2.2
        (rep_nat_bound (ω := ω) hSN).2
      exact ⟨y, fun _ => hy⟩
    · exact ⟨0, fun h => absurd h hc⟩
  choose B hB using h1
  have hpos : ∀ c ∈ claims l, 0 < B c := fun c hc =>
    lt_of_lt_of_le (mul_pos (h c hc).2.1 (pow_sub_pos 1)) (hB c hc).2.2.1.1
  obtain ⟨s0, hs0, hq⟩ := hQ
  obtain ⟨d0, hd0⟩ := claimsOf_nonempty l hs0
  refine ⟨_, e, B, ?_, ⟨fun c hc => ⟨(hB c hc).2.1, (hB c hc).2.2.2.1, (hB c hc).2.2.2.2, (h c hc).2.1.le⟩,
    ⟨c0, hc0, hpos c0 hc0⟩, 1, one_pos, fun c hc => ?_⟩, s0, d0, (mem_claimsOf l).1 hd0, hq,
    hpos d0 (mem_claims_of_claimsOf l hd0)⟩
  · apply List.map_congr_left
    intro c hc
    exact (hB c hc).1
  · rw [one_mul]; exact (hB c hc).2.2.1

theorem AccOut.close {l : List (S × V × X)} {Q : S → Prop} {p k : Nat} {x : Scores S V X} {t b : Vec (FP (.binary64 ω))}
    (h : AccOut l ω Q p k x t b) (hk : k ≤ 2 ^ 51) (time : FP (.binary64 ω)) (it : Option Nat) :
    CloseTo l (resultOf l t b time it) x (k / 2 ^ 51) := by
  obtain ⟨T, B, rfl, rfl, hT, hB, -⟩ := h
  have hk' : 2 * k ≤ 2 ^ 52 := by omega
  have e : ∀ x : ℝ, x * ((2 * k : Nat) : ℝ) / 2 ^ 52 = x * (k / 2 ^ 51) := fun x => by push_cast; ring
  have h1 := hT.1.near hT.2.1 hT.2.2.1 hT.2.2.2
  have h2 := hB.1.near hB.2.1 hB.2.2.1 hB.2.2.2
  constructor
  · intro s
    rw [trust_resultOf]
    simp only [mem_allSources]
    by_cases hs : s ∈ sources l
    · rw [if_pos hs, if_pos hs]
      refine ⟨_, rfl, ?_⟩
      rw [← e]
      exact (h1 s hs).abs_sub_le (hT.1.1 s hs).2.2.2 hk'
    · rw [if_neg hs, if_neg hs]
  · intro v y
    rw [belief_resultOf]
    simp only [mem_allClaims]
    by_cases hs : (v, y) ∈ claims l
    · rw [if_pos hs, if_pos hs]
      refine ⟨_, rfl, ?_⟩
      rw [← e]
      exact (h2 _ hs).abs_sub_le (hB.1.1 _ hs).2.2.2 hk'
    · rw [if_neg hs, if_neg hs]

theorem Spec.Sizes.lists {l : List (S × V × X)} {a b w : Nat} (h : Sizes l a b w) (hl : l ≠ []) :
    1 ≤ (sources l).length ∧ 1 ≤ (claims l).length ∧ (sources l).length * (claims l).length ≤ 2 ^ w ∧
      (sources l).length * ((claims l).length * (sources l).length) ≤ 2 ^ 53 := by
  refine ⟨List.length_pos_iff.2 (sources_ne hl), List.length_pos_iff.2 (claims_ne hl), ?_, sums_size h.big⟩
  rw [length_sources, length_claims]
  exact h.total

/-- The bounds used in an iteration. -/
theorem Spec.Sizes.bounds {l : List (S × V × X)} {a b w : Nat} (h : Sizes l a b w) (hl : l ≠ []) :
    (sources l).length * (claims l).length ≤ 2 ^ 53 ∧ (claims l).length ≤ 2 ^ 53 ∧ (claims l).length ≤ 2 ^ w ∧
      (claims l).length * (sources l).length ≤ 2 ^ 53 ∧
      (sources l).length * ((claims l).length * (sources l).length) ≤ 2 ^ (2 * w) ∧
      (claims l).length * (sources l).length ≤ 2 ^ (2 * w) := by
  obtain ⟨h1, h2, h3, h4⟩ := h.lists hl
  have e1 : (sources l).length * (claims l).length ≤ (sources l).length * ((claims l).length * (sources l).length) :=
    Nat.mul_le_mul_left _ (Nat.le_mul_of_pos_right _ h1)
  have e2 : (claims l).length ≤ (sources l).length * (claims l).length := Nat.le_mul_of_pos_left _ h1
  have e3 : (claims l).length * (sources l).length = (sources l).length * (claims l).length := mul_comm _ _
  have e4 : (sources l).length ≤ (sources l).length * (claims l).length := Nat.le_mul_of_pos_right _ h2
  have e5 : (2 : Nat) ^ (2 * w) = 2 ^ w * 2 ^ w := by rw [two_mul, pow_add]
  have e6 : (sources l).length * ((claims l).length * (sources l).length) ≤ 2 ^ w * 2 ^ w := by
    rw [← mul_assoc]
    exact Nat.mul_le_mul h3 (e4.trans h3)
  have e7 : (2 : Nat) ^ w ≤ 2 ^ w * 2 ^ w := Nat.le_mul_of_pos_right _ (pow_pos two_pos w)
  refine ⟨e1.trans h4, (e2.trans e1).trans h4, e2.trans h3, ?_, e5 ▸ e6, ?_⟩
  · rw [e3]; exact e1.trans h4
  · rw [e3, e5]; exact h3.trans e7

theorem sums_body_out {l : List (S × V × X)} (f : Option (V → X → X → Option (FP (.binary64 ω)))) {a b w : Nat}
    (h : Sizes l a b w) (hl : l ≠ []) (p k : Nat) (x : Scores S V X) (bl t : Vec (FP (.binary64 ω)))
    (hin : AccIn l ω (fun _ => True) p k 1 x bl) (hp : p + w ≤ 1022) :
    ∃ s, sumsBody (matsOf l f) t bl = .ok (some s) ∧
      AccOut l ω (fun _ => True) (p + w) (k + (a + b + 1)) (sumsStep l x) s.trust s.belief := by
  obtain ⟨h1, h2, h3, -⟩ := h.bounds hl
  have h4 := (h.lists hl).2.2.1
  exact sums_out l f t hin h.perSource h.perClaim (by rwa [mul_one]) (by rwa [mul_one]) (by rwa [mul_one]) (by rwa [mul_one]) hp

theorem sums_first_out {l : List (S × V × X)} (f : Option (V → X → X → Option (FP (.binary64 ω)))) {a b w : Nat}
    (h : Sizes l a b w) (hl : l ≠ []) (p k : Nat) (x : Scores S V X) (bl t : Vec (FP (.binary64 ω)))
    (hin : AccIn l ω (fun _ => True) p k (sources l).length x bl) (hp : p + 2 * w ≤ 1022) :
    ∃ s, sumsBody (matsOf l f) t bl = .ok (some s) ∧
      AccOut l ω (fun _ => True) (p + 2 * w) (k + (a + b + 1)) (sumsStep l x) s.trust s.belief := by
  obtain ⟨-, -, -, h1, h2, h3⟩ := h.bounds hl
  exact sums_out l f t hin h.perSource h.perClaim (h.lists hl).2.2.2 h1 h2 h3 hp

theorem avlog_body_out {l : List (S × V × X)} (f : Option (V → X → X → Option (FP (.binary64 ω)))) {a b w : Nat}
    (h : Sizes l a b w) (hw : w ≤ 53) (hl : l ≠ []) (p k : Nat) (x : Scores S V X) (bl t : Vec (FP (.binary64 ω)))
    (hin : AccIn l ω (Multi l) p k 1 x bl) (hp : p + (2 * w + 1) ≤ 1022) :
    ∃ s, avlogBody (matsOf l f) t bl = .ok (some s) ∧
      AccOut l ω (Multi l) (p + (2 * w + 1)) (k + (a + b + 5)) (avlogStep l x) s.trust s.belief := by
  obtain ⟨h1, h2, h3, -⟩ := h.bounds hl
  have h4 := (h.lists hl).2.2.1
  have := avlog_out l f (W := w) (w := w) t hin h.perSource h.perClaim (by rwa [mul_one]) (by rwa [mul_one]) h3 hw (by rwa [mul_one])
    (by rwa [mul_one]) (by omega)
  rwa [show w + w + 1 = 2 * w + 1 by omega] at this

theorem avlog_first_out {l : List (S × V × X)} (f : Option (V → X → X → Option (FP (.binary64 ω)))) {a b w : Nat}
    (h : Sizes l a b w) (hw : w ≤ 53) (hl : l ≠ []) (p k : Nat) (x : Scores S V X) (bl t : Vec (FP (.binary64 ω)))
    (hin : AccIn l ω (Multi l) p k (sources l).length x bl) (hp : p + (3 * w + 1) ≤ 1022) :
    ∃ s, avlogBody (matsOf l f) t bl = .ok (some s) ∧
      AccOut l ω (Multi l) (p + (3 * w + 1)) (k + (a + b + 5)) (avlogStep l x) s.trust s.belief := by
  obtain ⟨-, -, h0, h1, h2, h3⟩ := h.bounds hl
  have := avlog_out l f (W := 2 * w) (w := w) t hin h.perSource h.perClaim (h.lists hl).2.2.2 h1 h0 hw h2 h3 (by omega)
  rwa [show 2 * w + w + 1 = 3 * w + 1 by omega] at this

/-- Runs and partial results, given what an iteration does. -/
theorem close_run (c : AlgCfg (FP (.binary64 ω))) (l : List (S × V × X))
    (f : Option (V → X → X → Option (FP (.binary64 ω)))) (x0 : Scores S V X) {Q : S → Prop}
    {step : Scores S V X → Scores S V X} {q w W : Nat}
    (hbody : l ≠ [] → ∀ p k x bl t, AccIn l ω Q p k 1 x bl → p + w ≤ 1022 →
      ∃ s, c.kind.body (matsOf l f) t bl = .ok (some s) ∧ AccOut l ω Q (p + w) (k + q) (step x) s.trust s.belief)
    (hfirst : l ≠ [] → ∀ p k x bl t, AccIn l ω Q p k (sources l).length x bl → p + W ≤ 1022 →
      ∃ s, c.kind.body (matsOf l f) t bl = .ok (some s) ∧ AccOut l ω Q (p + W) (k + q) (step x) s.trust s.belief)
    (hin : l ≠ [] → ∃ t b, c.init (matsOf l f) = .ok (t, b) ∧ AccIn l ω Q 53 1 (sources l).length x0 b ∧
      initLog c t b = [⟨0, t, b⟩])
    (hfin : ∀ t b, c.finish t b = .ok (t, b))
    (fuel : Nat) (clock : Nat → FP (.binary64 ω)) (st : IterState (FP (.binary64 ω))) :
    (∀ r, c.run (datasetOf l f) fuel clock st = .ok r → ∀ k, r.iterations = some k → 1 ≤ k →
      53 + W + (k - 1) * w ≤ 1022 → k * q + 1 ≤ 2 ^ 51 → CloseTo l r (step^[k] x0) ((k * q + 1 : Nat) / 2 ^ 51)) ∧
    (∀ rs, c.runIter (datasetOf l f) fuel clock st = .ok rs → ∀ k r, rs[k]? = some r → 1 ≤ k →
      53 + W + (k - 1) * w ≤ 1022 → k * q + 1 ≤ 2 ^ 51 → CloseTo l r (step^[k] x0) ((k * q + 1 : Nat) / 2 ^ 51)) := by
  rw [run_eq, runIter_eq]
  cases he : c.exec (matsOf l f) fuel st with
  | error e => exact ⟨fun r h => (nomatch h), fun r h => (nomatch h)⟩
  | ok out =>
    obtain ⟨h0, t0, b0, n, st', t, b, L, hi, -, hs, -, hf, hit, hlog⟩ := (exec_ok_iff _ _ _ _ _).1 he
    have hl : l ≠ [] := fun e => h0 ((numClaims_zero l f).2 e)
    obtain ⟨t1, b1, hi1, hstart, hil⟩ := hin hl
    rw [hi1] at hi
    cases hi
    rw [hfin] at hf
    cases hf
    obtain ⟨g1, g2⟩ := steps_out l (hbody hl) hs hstart (W := W) (fun t hw => hfirst hl _ _ _ _ t hstart hw)
    constructor
    · intro r hr k hk hk1 hW hq
      cases hr
      have hk' : out.iterations = k := Option.some.inj hk
      rw [hit] at hk'
      subst hk'
      rw [add_comm] at hq ⊢
      exact (g1 hk1 hW).close hq _ _
    · intro rs hr k r hri hk1 hW hq
      cases hr
      simp only [enum, List.map_map, List.getElem?_map, List.getElem?_zipIdx, Option.map_map,
        Option.map_eq_some_iff] at hri
      obtain ⟨e, he', rfl⟩ := hri
      rw [hlog, hil] at he'
      obtain ⟨j, rfl⟩ : ∃ j, k = j + 1 := ⟨k - 1, by omega⟩
      have hL : L[j]? = some e := by simpa using he'
      rw [add_comm ((j + 1) * q)] at hq ⊢
      exact (g2 j e hL hW).close hq _ _

/-- **C99.** Sums in double precision: after `k` iterations, from any prior and with any iterator, every score is a finite
number that differs from the `k`-th iterate of the published update, computed exactly, by at most the fraction
`(k * (a + b + 1) + 1) / 2 ^ 51` of it, where no source has more than `a` claims and no claim more than `b` sources.
This covers the returned result and all partial results. -/
theorem C99_sums (l : List (S × V × X)) (am : Bool) (f : Option (V → X → X → Option (FP (.binary64 ω))))
    (d : Dataset S V X (FP (.binary64 ω))) (h : Dataset.mk' l am f = .ok d) {a b w : Nat} (hsize : Sizes l a b w)
    (it : IterCfg (FP (.binary64 ω))) (p : Prior) (fuel : Nat) (clock : Nat → FP (.binary64 ω))
    (st : IterState (FP (.binary64 ω))) :
    (∀ r, (⟨.sums, it, some p⟩ : AlgCfg (FP (.binary64 ω))).run d fuel clock st = .ok r → ∀ k, r.iterations = some k → 1 ≤ k →
      53 + (k + 1) * w ≤ 1022 → k * (a + b + 1) + 1 ≤ 2 ^ 51 →
      CloseTo l r ((sumsStep l)^[k] ((fun _ => 0), priorOf l p)) ((k * (a + b + 1) + 1 : Nat) / 2 ^ 51)) ∧
    (∀ rs, (⟨.sums, it, some p⟩ : AlgCfg (FP (.binary64 ω))).runIter d fuel clock st = .ok rs → ∀ k r, rs[k]? = some r → 1 ≤ k →
      53 + (k + 1) * w ≤ 1022 → k * (a + b + 1) + 1 ≤ 2 ^ 51 →
      CloseTo l r ((sumsStep l)^[k] ((fun _ => 0), priorOf l p)) ((k * (a + b + 1) + 1 : Nat) / 2 ^ 51)) := by
  obtain rfl := ((mk'_ok_iff l one_ne_zero_fp am f d).1 h).1
  obtain ⟨h1, h2⟩ := close_run (⟨.sums, it, some p⟩ : AlgCfg (FP (.binary64 ω))) l f ((fun _ => 0), priorOf l p)
    (Q := fun _ => True)
    (step := sumsStep l) (q := a + b + 1) (w := w) (W := 2 * w) (fun hl => sums_body_out f hsize hl)
    (fun hl => sums_first_out f hsize hl) (fun hl => by
      obtain ⟨s, hs⟩ := List.exists_mem_of_ne_nil _ (sources_ne hl)
      obtain ⟨b, e, h⟩ := prior_in (ω := ω) l f hl (hsize.bounds hl).1 p (fun _ => True) ⟨s, hs, trivial⟩
      exact ⟨_, b, by simp only [AlgCfg.init, e]; rfl, h, rfl⟩) (fun t b => rfl) fuel clock st
  have e : ∀ k, 1 ≤ k → 53 + (k + 1) * w = 53 + 2 * w + (k - 1) * w := fun k hk => by
    obtain ⟨j, rfl⟩ : ∃ j, k = j + 1 := ⟨k - 1, by omega⟩
    rw [Nat.add_sub_cancel]; ring
  exact ⟨fun r hr k hk hk1 hw hq => h1 r hr k hk hk1 (by rw [← e k hk1]; exact hw) hq,
    fun rs hr k r hk hk1 hw hq => h2 rs hr k r hk hk1 (by rw [← e k hk1]; exact hw) hq⟩

/-- **C99.** The same for AverageLog, if some source makes at least two claims, with `a + b + 5` roundings in an iteration. -/
theorem C99_average_log (l : List (S × V × X)) (am : Bool) (f : Option (V → X → X → Option (FP (.binary64 ω))))
    (d : Dataset S V X (FP (.binary64 ω))) (h : Dataset.mk' l am f = .ok d) {a b w : Nat} (hsize : Sizes l a b w)
    (hw : w ≤ 53) (hm : ∃ s, 2 ≤ (claimsOf l s).card)
    (it : IterCfg (FP (.binary64 ω))) (p : Prior) (fuel : Nat) (clock : Nat → FP (.binary64 ω))
    (st : IterState (FP (.binary64 ω))) :
    (∀ r, (⟨.averageLog, it, some p⟩ : AlgCfg (FP (.binary64 ω))).run d fuel clock st = .ok r → ∀ k, r.iterations = some k → 1 ≤ k →
      53 + w + k * (2 * w + 1) ≤ 1022 → k * (a + b + 5) + 1 ≤ 2 ^ 51 →
      CloseTo l r ((avlogStep l)^[k] ((fun _ => 0), priorOf l p)) ((k * (a + b + 5) + 1 : Nat) / 2 ^ 51)) ∧
    (∀ rs, (⟨.averageLog, it, some p⟩ : AlgCfg (FP (.binary64 ω))).runIter d fuel clock st = .ok rs → ∀ k r, rs[k]? = some r → 1 ≤ k →
      53 + w + k * (2 * w + 1) ≤ 1022 → k * (a + b + 5) + 1 ≤ 2 ^ 51 →
      CloseTo l r ((avlogStep l)^[k] ((fun _ => 0), priorOf l p)) ((k * (a + b + 5) + 1 : Nat) / 2 ^ 51)) := by
  obtain rfl := ((mk'_ok_iff l one_ne_zero_fp am f d).1 h).1
  obtain ⟨h1, h2⟩ := close_run (⟨.averageLog, it, some p⟩ : AlgCfg (FP (.binary64 ω))) l f ((fun _ => 0), priorOf l p)
    (Q := Multi l) (step := avlogStep l) (q := a + b + 5) (w := 2 * w + 1) (W := 3 * w + 1)
    (fun hl => avlog_body_out f hsize hw hl) (fun hl => avlog_first_out f hsize hw hl) (fun hl => by
      obtain ⟨s, hs⟩ := hm
      obtain ⟨c, hc⟩ := Finset.card_pos.1 (by omega : 0 < (claimsOf l s).card)
      obtain ⟨b, e, h⟩ := prior_in (ω := ω) l f hl (hsize.bounds hl).1 p (Multi l)
        ⟨s, mem_sources_of_sourcesOf l ((mem_sourcesOf l).2 ((mem_claimsOf l).1 hc)), hs⟩
      exact ⟨_, b, by simp only [AlgCfg.init, e]; rfl, h, rfl⟩) (fun t b => rfl) fuel clock st
  have e : ∀ k, 1 ≤ k → 53 + w + k * (2 * w + 1) = 53 + (3 * w + 1) + (k - 1) * (2 * w + 1) := fun k hk => by
    obtain ⟨j, rfl⟩ : ∃ j, k = j + 1 := ⟨k - 1, by omega⟩
    rw [Nat.add_sub_cancel]; ring
  exact ⟨fun r hr k hk hk1 hw hq => h1 r hr k hk hk1 (by rw [← e k hk1]; exact hw) hq,
    fun rs hr k r hk hk1 hw hq => h2 rs hr k r hk hk1 (by rw [← e k hk1]; exact hw) hq⟩

theorem Spec.CloseTo.runs {l : List (S × V × X)} {r : Result S V X (FP (.binary64 ω))} {r' : Result S V X Ex}
    {p : Scores S V X} {δ : ℝ} (h : CloseTo l r p δ) (h' : Reports l r' p) : CloseRuns r r' δ := by
  constructor
  · intro s
    have h1 := h.1 s
    have h2 := h'.1 s
    split at h1
    · rename_i hs
      rw [if_pos hs] at h2
      obtain ⟨y, hy, he⟩ := h1
      exact .inr ⟨_, _, h2, hy, he⟩
    · rename_i hs
      rw [if_neg hs] at h2
      exact .inl ⟨h1, h2⟩
  · intro v x
    have h1 := h.2 v x
    have h2 := h'.2 v x
    split at h1
    · rename_i hs
      rw [if_pos hs] at h2
      obtain ⟨y, hy, he⟩ := h1
      exact .inr ⟨_, _, h2, hy, he⟩
    · rename_i hs
      rw [if_neg hs] at h2
      exact .inl ⟨h1, h2⟩

/-- **C99.** Majority voting in double precision: one rounding. -/
theorem C99_voting (l : List (S × V × X)) (am : Bool) (f : Option (V → X → X → Option (FP (.binary64 ω))))
    (d : Dataset S V X (FP (.binary64 ω))) (h : Dataset.mk' l am f = .ok d) (hl : l ≠ [])
    (hsize : (allSources l).card ≤ 2 ^ 53) (clock : Nat → FP (.binary64 ω)) (r : Result S V X (FP (.binary64 ω)))
    (hr : votingRun d clock = .ok r) : CloseTo l r (voting l) (1 / 2 ^ 52) := by
  obtain ⟨r', hr', hcomp, -, -, ht, m, hm, hmax, hb⟩ := C29_rounded C31_binary64 l am f d h hl hsize clock
  rw [hr] at hr'
  cases hr'
  have hmc := (mem_allClaims l).1 hm
  have hm0 : (0 : ℝ) < (sourcesOf l m).card := by exact_mod_cast (sourcesOf_nonempty l hmc).card_pos
  have htop : top (allClaims l) (nSources l) = (sourcesOf l m).card :=
    Ex.top_eq_of (fun c hc => by
      show ((sourcesOf l c).card : ℝ) ≤ _
      exact_mod_cast hmax c hc) ⟨m, hm, rfl⟩
  constructor
  · intro s
    by_cases hs : s ∈ allSources l
    · rw [if_pos hs]
      obtain ⟨x, hx⟩ := Option.isSome_iff_exists.1 ((hcomp.1 s).2 hs)
      refine ⟨1, by rw [hx, ht s x hx], ?_⟩
      show |(1 : ℝ) - 1| ≤ 1 * _
      rw [sub_self, abs_zero]; positivity
    · rw [if_neg hs]
      have := mt (hcomp.1 s).1 hs
      simpa using this
  · intro v x
    by_cases hc : (v, x) ∈ allClaims l
    · rw [if_pos hc, hb v x hc]
      have h1 : (1 : ℝ) ≤ (sourcesOf l (v, x)).card := by
        exact_mod_cast (sourcesOf_nonempty l ((mem_allClaims l).1 hc)).card_pos
      have h2 : ((sourcesOf l m).card : ℝ) ≤ 2 ^ 53 := by
        have : (sources l).length ≤ 2 ^ 53 := by rw [length_sources]; exact hsize
        exact_mod_cast (card_sourcesOf_le l m).trans this
      have h3 : ((sourcesOf l (v, x)).card : ℝ) ≤ (sourcesOf l m).card := by exact_mod_cast hmax _ hc
      have e : (voting l).2 (v, x) = (sourcesOf l (v, x)).card / (sourcesOf l m).card := by
        show nSources l (v, x) / top (allClaims l) (nSources l) = _
        rw [htop]; rfl
      have haw : Away 53 (((sourcesOf l (v, x)).card : ℝ) / (sourcesOf l m).card) := by
        refine .inr ?_
        have : (2 : ℝ) ^ (-((53 : Nat) : ℤ)) = 1 / 2 ^ 53 := by rw [zpow_neg, one_div]; norm_num
        rw [this]
        exact div_le_div₀ (by linarith) h1 hm0 h2
      obtain ⟨y, hy, -, hn, -, -⟩ := near_rnd (ω := ω) (by norm_num) haw (b := (1 : Nat)) (rep_nat_bound (by norm_num)).1
        (by rw [Nat.cast_one]; exact (div_le_one hm0).2 h3) (rep_nat_bound (ω := ω) (by norm_num)).2
      refine ⟨y, by rw [hy]; rfl, ?_⟩
      rw [e]
      have := hn.abs_sub_le (div_nonneg (by linarith) hm0.le) (by norm_num)
      rw [Nat.cast_one, mul_one] at this
      exact this.trans (le_of_eq (div_eq_mul_one_div _ _))
    · rw [if_neg hc]
      have := mt (hcomp.2 v x).1 hc
      simpa using this

/-- **C99.** The same, as a comparison of two runs: one in double precision, one computing exactly. -/
theorem C99_sums_exact (l : List (S × V × X)) (am : Bool) (f : Option (V → X → X → Option (FP (.binary64 ω))))
    (d : Dataset S V X (FP (.binary64 ω))) (h : Dataset.mk' l am f = .ok d)
    (f' : Option (V → X → X → Option Ex)) (d' : Dataset S V X Ex) (h' : Dataset.mk' l am f' = .ok d')
    (hl : l ≠ []) {a b w : Nat} (hsize : Sizes l a b w)
    (it : IterCfg (FP (.binary64 ω))) (it' : IterCfg Ex) (p : Prior) (fuel fuel' : Nat) (clock : Nat → FP (.binary64 ω))
    (clock' : Nat → Ex) (st : IterState (FP (.binary64 ω))) (st' : IterState Ex)
    (r : Result S V X (FP (.binary64 ω))) (r' : Result S V X Ex)
    (hr : (⟨.sums, it, some p⟩ : AlgCfg (FP (.binary64 ω))).run d fuel clock st = .ok r)
    (hr' : (⟨.sums, it', some p⟩ : AlgCfg Ex).run d' fuel' clock' st' = .ok r')
    (k : Nat) (hk : r.iterations = some k) (hk' : r'.iterations = some k) (hk1 : 1 ≤ k)
    (hw : 53 + (k + 1) * w ≤ 1022) (hq : k * (a + b + 1) + 1 ≤ 2 ^ 51) :
    CloseRuns r r' ((k * (a + b + 1) + 1 : Nat) / 2 ^ 51) := by
  obtain ⟨k', e, hR⟩ := (C30_sums l am f' d' h' hl it' p).1 _ _ _ _ hr'
  rw [hk'] at e
  cases e
  exact ((C99_sums l am f d h hsize it p fuel clock st).1 r hr k hk hk1 hw hq).runs hR

/-- **C99.** The same for AverageLog. -/
theorem C99_average_log_exact (l : List (S × V × X)) (am : Bool) (f : Option (V → X → X → Option (FP (.binary64 ω))))
    (d : Dataset S V X (FP (.binary64 ω))) (h : Dataset.mk' l am f = .ok d)
    (f' : Option (V → X → X → Option Ex)) (d' : Dataset S V X Ex) (h' : Dataset.mk' l am f' = .ok d')
    (hm : ∃ s, 2 ≤ (claimsOf l s).card) {a b w : Nat} (hsize : Sizes l a b w) (hw53 : w ≤ 53)
    (it : IterCfg (FP (.binary64 ω))) (it' : IterCfg Ex) (p : Prior) (fuel fuel' : Nat) (clock : Nat → FP (.binary64 ω))
    (clock' : Nat → Ex) (st : IterState (FP (.binary64 ω))) (st' : IterState Ex)
    (r : Result S V X (FP (.binary64 ω))) (r' : Result S V X Ex)
    (hr : (⟨.averageLog, it, some p⟩ : AlgCfg (FP (.binary64 ω))).run d fuel clock st = .ok r)
    (hr' : (⟨.averageLog, it', some p⟩ : AlgCfg Ex).run d' fuel' clock' st' = .ok r')
    (k : Nat) (hk : r.iterations = some k) (hk' : r'.iterations = some k) (hk1 : 1 ≤ k)
    (hw : 53 + w + k * (2 * w + 1) ≤ 1022) (hq : k * (a + b + 5) + 1 ≤ 2 ^ 51) :
    CloseRuns r r' ((k * (a + b + 5) + 1 : Nat) / 2 ^ 51) := by
  obtain ⟨k', e, hR⟩ := (C32_average_log l am f' d' h' hm it' p).1 _ _ _ _ hr'
  rw [hk'] at e
  cases e
  exact ((C99_average_log l am f d h hsize hw53 hm it p fuel clock st).1 r hr k hk hk1 hw hq).runs hR

theorem mostBelieved_close {l : List (S × V × X)} {r : Result S V X (FP (.binary64 ω))} {p : Scores S V X} {δ : ℝ}
    (hr : CloseTo l r p δ) (hu : ∀ v d, r.belief.get? v = some d → d.keys.Nodup) {v : V} {x : X}
    (hx : (v, x) ∈ allClaims l) :
    ∃ (xs : List X) (y : X → ℝ), r.mostBelieved v = .ok xs ∧ xs ≠ [] ∧ xs.Nodup ∧
      (∀ z, (v, z) ∈ allClaims l → |y z - p.2 (v, z)| ≤ p.2 (v, z) * δ) ∧
      ∀ z, z ∈ xs ↔ (v, z) ∈ allClaims l ∧ ∀ z', (v, z') ∈ allClaims l → y z' ≤ y z := by
  have hv := hr.2 v
  cases hd : r.belief.get? v with
  | none =>
    have := hv x
    rw [if_pos hx, hd] at this
    obtain ⟨y, e, -⟩ := this
    cases e
  | some dct =>
    simp only [hd, Option.bind_some] at hv
    have hval : ∀ z, ∃ y, (v, z) ∈ allClaims l → dct.get? z = some (FP.fin y) ∧ |y - p.2 (v, z)| ≤ p.2 (v, z) * δ := by
      intro z
      by_cases hz : (v, z) ∈ allClaims l
      · have := hv z
        rw [if_pos hz] at this
        obtain ⟨y, hy⟩ := this
        exact ⟨y, fun _ => hy⟩
      · exact ⟨0, fun h => absurd h hz⟩
    choose y hy using hval
    have hmem : ∀ z b, dct.get? z = some b → (v, z) ∈ allClaims l ∧ b = FP.fin (y z) := by
      intro z b hb
      by_cases hz : (v, z) ∈ allClaims l
      · have := (hy z hz).1
        rw [hb] at this
        cases this
        exact ⟨hz, rfl⟩
      · have := hv z
        rw [if_neg hz, hb] at this
        cases this
    have hne : dct ≠ [] := by
      rintro rfl
      have := (hy x hx).1
      cases this
    have hnan : ∀ q ∈ dct, q.2 ≠ FP.nan := by
      rintro ⟨z, b⟩ hq
      have := (hmem z b (lookup_some_of_mem (hu v dct hd) hq)).2
      rw [this]
      exact nofun
    obtain ⟨xs, h1, h2, h3, h4⟩ := C43_maximal _ r v dct hd hne hnan (hu v dct hd)
    refine ⟨xs, y, h1, h2, h3, fun z hz => (hy z hz).2, fun z => ?_⟩
    rw [h4 z]
    constructor
    · rintro ⟨b, hb, hle⟩
      obtain ⟨hz, rfl⟩ := hmem z b hb
      refine ⟨hz, fun z' hz' => ?_⟩
      have : ((y z' : ℝ) : EReal) ≤ (y z : ℝ) := hle z' _ (hy z' hz').1
      exact_mod_cast this
    · rintro ⟨hz, hle⟩
      refine ⟨_, (hy z hz).1, fun z' c hc => ?_⟩
      obtain ⟨hz', rfl⟩ := hmem z' c hc
      show ((y z' : ℝ) : EReal) ≤ (y z : ℝ)
      exact_mod_cast hle z' hz'

/-- **C99.** What such a bound on the errors says about the answers: if, computed exactly, the belief in `x` exceeds that
in every other value of the variable by more than the error bound, `x` is the only most believed value of the result
computed in double precision. -/
theorem C99_most_believed (A : AnyAlg (FP (.binary64 ω))) (d : Dataset S V X (FP (.binary64 ω))) (fuel : Nat)
    (clock : Nat → FP (.binary64 ω)) (r : Result S V X (FP (.binary64 ω))) (h : A.run d fuel clock = .ok r)
    (l : List (S × V × X)) (p : Scores S V X) (δ : ℝ) (hr : CloseTo l r p δ) (v : V) (x : X)
    (hx : (v, x) ∈ allClaims l)
    (hsep : ∀ z, (v, z) ∈ allClaims l → z ≠ x → p.2 (v, z) * (1 + δ) < p.2 (v, x) * (1 - δ)) :
    r.mostBelieved v = .ok [x] := by
  obtain ⟨xs, y, h1, h2, h3, h4, h5⟩ := mostBelieved_close hr (runs_inner A d fuel clock r h) hx
  have hall : ∀ z ∈ xs, z = x := by
    intro z hz
    obtain ⟨hz1, hz2⟩ := (h5 z).1 hz
    by_contra hne
    have a1 := abs_le.1 (h4 z hz1)
    have a2 := abs_le.1 (h4 x hx)
    have a3 := hsep z hz1 hne
    have a4 := hz2 x hx
    rw [mul_add, mul_sub] at a3
    linarith [a1.2, a2.1]
  rw [h1]
  congr 1
  cases xs with
  | nil => exact absurd rfl h2
  | cons z zs =>
    have hz := hall z (by simp)
    subst hz
    cases zs with
    | nil => rfl
    | cons z' zs =>
      have := hall z' (by simp)
      subst this
      simp at h3

/-- **C99.** In any case, computed exactly, the belief in a most believed value of the result computed in double precision is
the largest one, up to the error bound. -/
theorem C99_most_believed_nearly (A : AnyAlg (FP (.binary64 ω))) (d : Dataset S V X (FP (.binary64 ω))) (fuel : Nat)
    (clock : Nat → FP (.binary64 ω)) (r : Result S V X (FP (.binary64 ω))) (h : A.run d fuel clock = .ok r)
    (l : List (S × V × X)) (p : Scores S V X) (δ : ℝ) (hr : CloseTo l r p δ) (v : V) (xs : List X)
    (hxs : r.mostBelieved v = .ok xs) (x : X) (hx : x ∈ xs) (z : X) (hz : (v, z) ∈ allClaims l) :
    (v, x) ∈ allClaims l ∧ p.2 (v, z) * (1 - δ) ≤ p.2 (v, x) * (1 + δ) := by
  obtain ⟨xs', y, h1, h2, h3, h4, h5⟩ := mostBelieved_close hr (runs_inner A d fuel clock r h) hz
  rw [hxs] at h1
  cases h1
  obtain ⟨hx1, hx2⟩ := (h5 x).1 hx
  refine ⟨hx1, ?_⟩
  have a1 := abs_le.1 (h4 z hz)
  have a2 := abs_le.1 (h4 x hx1)
  have a4 := hx2 z hz
  rw [mul_add, mul_sub]
  linarith [a1.1, a2.2]

/-- The hypotheses hold for a concrete dataset and configuration; the relative error is less than `5 / 10 ^ 14`. -/
example (clock : Nat → FP (.binary64 ω)) (clock' : Nat → Ex) : ∃ (d : Dataset Nat Nat Nat (FP (.binary64 ω)))
    (r : Result Nat Nat Nat (FP (.binary64 ω))) (d' : Dataset Nat Nat Nat Ex) (r' : Result Nat Nat Nat Ex),
    Dataset.mk' [(0, 0, 1), (1, 0, 2), (1, 1, 5), (2, 0, 2)] false none = .ok d ∧
    (⟨.sums, .fixed 20, some .voted⟩ : AlgCfg (FP (.binary64 ω))).run d 100 clock = .ok r ∧
    Dataset.mk' [(0, 0, 1), (1, 0, 2), (1, 1, 5), (2, 0, 2)] false none = .ok d' ∧
    (⟨.sums, .fixed 20, some .voted⟩ : AlgCfg Ex).run d' 100 clock' = .ok r' ∧
    CloseRuns r r' ((101 : Nat) / 2 ^ 51) ∧ ((101 : Nat) / 2 ^ 51 : ℝ) < 5 / 10 ^ 14 := by
  have hd := (mk'_ok_iff [(0, 0, 1), (1, 0, 2), (1, 1, 5), (2, 0, 2)] (one_ne_zero_fp (R := .binary64 ω)) false none _).2
    ⟨rfl, .inr (by simp [NoRepeats]), by simp [optImpBad]⟩
  have hd' := (mk'_ok_iff [(0, 0, 1), (1, 0, 2), (1, 1, 5), (2, 0, 2)] ex_one_ne_zero false none _).2
    ⟨rfl, .inr (by simp [NoRepeats]), by simp [optImpBad]⟩
  have hsize : Sizes [(0, 0, 1), (1, 0, 2), (1, 1, 5), (2, 0, 2)] 2 2 4 := by
    refine ⟨fun s => ?_, fun c => ?_, by decide, by decide⟩
    · by_cases hs : s ∈ sources [(0, 0, 1), (1, 0, 2), (1, 1, 5), (2, 0, 2)]
      · have : ∀ s ∈ sources [(0, 0, 1), (1, 0, 2), (1, 1, 5), (2, 0, 2)],
          (claimsOf [(0, 0, 1), (1, 0, 2), (1, 1, 5), (2, 0, 2)] s).card ≤ 2 := by decide
        exact this s hs
      · have : claimsOf [(0, 0, 1), (1, 0, 2), (1, 1, 5), (2, 0, 2)] s = ∅ := by
          rw [Finset.eq_empty_iff_forall_notMem]
          intro c hc
          exact hs (mem_sources_of_sourcesOf _ ((mem_sourcesOf _).2 ((mem_claimsOf _).1 hc)))
        rw [this]; simp
    · by_cases hs : c ∈ claims [(0, 0, 1), (1, 0, 2), (1, 1, 5), (2, 0, 2)]
      · have : ∀ c ∈ claims [(0, 0, 1), (1, 0, 2), (1, 1, 5), (2, 0, 2)],
          (sourcesOf [(0, 0, 1), (1, 0, 2), (1, 1, 5), (2, 0, 2)] c).card ≤ 2 := by decide
        exact this c hs
      · have : sourcesOf [(0, 0, 1), (1, 0, 2), (1, 1, 5), (2, 0, 2)] c = ∅ := by
          rw [Finset.eq_empty_iff_forall_notMem]
          intro s hc
          exact hs (mem_claims_of_claimsOf _ ((mem_claimsOf _).2 ((mem_sourcesOf _).1 hc)))
        rw [this]; simp
  obtain ⟨r, hr, hk⟩ := C31_sums_fixed C31_binary64 (by norm_num) _ _ _ _ hd (by simp) hsize.big 20 .voted 100
    (by norm_num) clock {}
  obtain ⟨r', hr', hk', -⟩ := (C30_sums _ _ _ _ hd' (by simp) (.fixed 20) .voted).2.2 20 100 clock' {} (by norm_num)
  exact ⟨_, r, _, r', hd, hr, hd', hr',
    C99_sums_exact _ _ _ _ hd _ _ hd' (by simp) hsize _ _ _ _ _ _ _ _ _ r r' hr hr' 20 hk hk' (by norm_num)
      (by norm_num) (by norm_num), by norm_num⟩

end TD
