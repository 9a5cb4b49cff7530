import Verif.Lemmas.CrhPrecision
import Verif.Spec.CrhAccurate
import Verif.Props.Finite
/-!
# Every iteration of CRH in double precision is accurate (C109)
-/

namespace TD
open Spec Double
attribute [-instance] instBEqProd

variable {S V X : Type} [DecidableEq S] [DecidableEq V] [DecidableEq X] {ω : Platform}

/-- The scores of a loop state. -/
def CrhIs (l : List (S × V × X)) (p : Scores S V X) (t b : Vec (FP (.binary64 ω))) : Prop :=
  t = (sources l).map (fun s => FP.fin (p.1 s)) ∧ b = (claims l).map (fun c => FP.fin (p.2 c))

theorem CrhIs.shows {l : List (S × V × X)} {p : Scores S V X} {t b : Vec (FP (.binary64 ω))} (h : CrhIs l p t b)
    (time : FP (.binary64 ω)) (it : Option Nat) : ShowsScores l (resultOf l t b time it) p := by
  obtain ⟨rfl, rfl⟩ := h
  refine ⟨fun s => ?_, fun v x => ?_⟩
  · rw [trust_resultOf]; simp only [mem_allSources]
  · rw [belief_resultOf]; simp only [mem_allClaims]

/-- One iteration. -/
theorem crh_accurate (l : List (S × V × X)) (f : Option (V → X → X → Option (FP (.binary64 ω)))) (hl : l ≠ []) {e : ℝ}
    (he : IsDouble e) (he0 : (2 : ℝ) ^ (-60 : ℤ) ≤ e) (he1 : e ≤ 1)
    (hsize : (sources l).length * ((claims l).length * (claims l).length) ≤ 2 ^ 46)
    (t : Vec (FP (.binary64 ω))) (p : Scores S V X) (hp : CrhGood l p.2) :
    ∃ s p', crhBody (FP.fin e) (matsOf l f) t ((claims l).map fun c => FP.fin (p.2 c)) = .ok (some s) ∧
      CrhIs l p' s.trust s.belief ∧ CrhAccurate l e p.2 p' ∧ CrhGood l p'.2 := by
  have hC1 : 1 ≤ (claims l).length * (claims l).length :=
    Nat.mul_pos (List.length_pos_iff.2 (claims_ne hl)) (List.length_pos_iff.2 (claims_ne hl))
  have hS46 : (sources l).length ≤ 2 ^ 46 := (Nat.le_mul_of_pos_right _ hC1).trans hsize
  have hsz : (sources l).length * (4 * ((claims l).length * (claims l).length) + 1) ≤ 2 ^ 53 := by
    rw [Nat.mul_add, mul_one, Nat.mul_left_comm]
    omega
  obtain ⟨T, hT, h1⟩ := crh_trust_near l f hl he he0 he1 hsz hp p.1
  obtain ⟨B, hB, h2, h3⟩ := crh_belief_near l f hl hS46 (T := T) fun s hs => ⟨(h1 s hs).1, he0.trans (h1 s hs).2.1, (h1 s hs).2.2.1⟩
  refine ⟨⟨t, (sources l).map fun s => FP.fin (T s), (sources l).map fun s => FP.fin (T s), (claims l).map fun c => FP.fin (B c)⟩, (T, B),
    ?_, ⟨rfl, rfl⟩, ⟨fun s hs => ?_, fun c hc => ?_⟩, h2⟩
  · simp only [crhBody]
    rw [hT, hB]
  · rw [← length_sources, ← length_claims]
    exact (h1 s ((mem_allSources l).1 hs)).2.2.2
  · rw [← length_sources]
    exact h3 c ((mem_allClaims l).1 hc)

/-- The first beliefs. -/
theorem crh_start (l : List (S × V × X)) (f : Option (V → X → X → Option (FP (.binary64 ω)))) (hl : l ≠ [])
    (hS : (sources l).length ≤ 2 ^ 53) (it : IterCfg (FP (.binary64 ω))) (p : Option Prior) (eps : FP (.binary64 ω)) :
    ∃ t, ∃ b : V × X → ℝ, (⟨.crh eps, it, p⟩ : AlgCfg (FP (.binary64 ω))).init (matsOf l f) = .ok (t, (claims l).map fun c => FP.fin (b c)) ∧
      CrhGood l b ∧ ∀ c ∈ allClaims l, |b c - nSources l c / (allSources l).card| ≤ nSources l c / (allSources l).card / 2 ^ 52 := by
  have hS1 : 1 ≤ (sources l).length := List.length_pos_iff.2 (sources_ne hl)
  have hSp : (0 : ℝ) < (sources l).length := by exact_mod_cast hS1
  have hS53 : ((sources l).length : ℝ) ≤ 2 ^ 53 := by exact_mod_cast hS
  have hB : ∀ c, ∃ y, c ∈ claims l → (FP.fin ((sourcesOf l c).card : ℝ) /. FP.fin ((sources l).length : ℝ) : FP (.binary64 ω)) = FP.fin y ∧
      (IsDouble y ∧ (2 : ℝ) ^ (-120 : ℤ) ≤ y ∧ y ≤ 2) ∧
      |y - nSources l c / (allSources l).card| ≤ nSources l c / (allSources l).card / 2 ^ 52 := by
    intro c
    by_cases hc : c ∈ claims l
    swap
    · exact ⟨0, fun h => absurd h hc⟩
    have hn1 : (1 : ℝ) ≤ (sourcesOf l c).card := by exact_mod_cast (sourcesOf_nonempty l hc).card_pos
    have hq : (2 : ℝ) ^ (-((53 : Nat) : ℤ)) ≤ (sourcesOf l c).card / (sources l).length := by
      rw [le_div_iff₀ hSp]
      calc (2 : ℝ) ^ (-((53 : Nat) : ℤ)) * (sources l).length ≤ 2 ^ (-((53 : Nat) : ℤ)) * 2 ^ 53 :=
            mul_le_mul_of_nonneg_left hS53 (two_zpow_pos _).le
        _ = 1 := by norm_num
        _ ≤ _ := hn1
    have hle : ((sourcesOf l c).card : ℝ) / (sources l).length ≤ 1 := (div_le_one hSp).2 (by exact_mod_cast card_sourcesOf_le l c)
    obtain ⟨z, hz, zr, zn, zw, zb⟩ := near_rnd (ω := ω) (p := 53) (by norm_num) (.inr hq) rep_one hle
      (by have := le_big (k := 0) (by norm_num); simpa using this)
    have zpos : 0 < z := lt_of_lt_of_le (mul_pos (by positivity) (pow_sub_pos 1)) zn.1
    refine ⟨z, fun _ => ⟨?_, ⟨((C31_nearest _).1 _ hz).1, ?_, by linarith⟩, ?_⟩⟩
    · rw [FP.div_fin _ hSp.ne']; exact hz
    · rcases zw with h | h
      · exact absurd h zpos.ne'
      · exact le_trans (zpow_le_zpow_right₀ one_le_two (by norm_num)) h
    · have := zn.abs_sub_le (by positivity) (by norm_num)
      rw [← length_sources]
      simpa [nSources] using this
  choose B hB using hB
  refine ⟨zeros (matsOf l f).numSources, B, ?_, fun c hc => (hB c hc).2.1, fun c hc => (hB c ((mem_allClaims l).1 hc)).2.2⟩
  have e : (Arith.ofNat (matsOf l f).numSources : FP (.binary64 ω)) = FP.fin ((sources l).length : ℝ) := rep64_nat hS
  simp only [AlgCfg.init]
  rw [sourceCounts_fp l f C31_binary64 hS, e, List.map_map]
  congr 2
  exact List.map_congr_left fun c hc => (hB c hc).1

/-- The scores of all iterations of a loop. -/
theorem crh_chain (l : List (S × V × X)) {e : ℝ} {body : Vec (FP (.binary64 ω)) → Vec (FP (.binary64 ω)) → Except PyErr (Option (Step (FP (.binary64 ω))))}
    (hbody : ∀ t (p : Scores S V X), CrhGood l p.2 → ∃ s p', body t ((claims l).map fun c => FP.fin (p.2 c)) = .ok (some s) ∧
      CrhIs l p' s.trust s.belief ∧ CrhAccurate l e p.2 p' ∧ CrhGood l p'.2)
    {it : IterCfg (FP (.binary64 ω))} {st : IterState (FP (.binary64 ω))} {t b : Vec (FP (.binary64 ω))} {n : Nat} {st' t' b' L}
    (h : Steps it body st t b n st' t' b' L) : ∀ p : Scores S V X, b = (claims l).map (fun c => FP.fin (p.2 c)) → CrhGood l p.2 →
    ∃ q : Nat → Scores S V X, q 0 = p ∧ (∀ j < n, CrhAccurate l e (q j).2 (q (j + 1))) ∧ (1 ≤ n → CrhIs l (q n) t' b') ∧
      L.length = n ∧ ∀ i ent, L[i]? = some ent → CrhIs l (q (i + 1)) ent.trust ent.belief := by
  induction h with
  | refl => intro p _ _; exact ⟨fun _ => p, rfl, by omega, by omega, rfl, by simp⟩
  | cons hfin hbd hcmp hrest ih =>
    intro p hb hp
    subst hb
    obtain ⟨s, p', hs, his, hacc, hg⟩ := hbody _ p hp
    rw [hs] at hbd
    cases hbd
    obtain ⟨q, q0, q1, q2, q3, q4⟩ := ih p' his.2 hg
    refine ⟨fun j => match j with | 0 => p | j + 1 => q j, rfl, ?_, ?_, by simp [q3], ?_⟩
    · intro j hj
      cases j with
      | zero => dsimp only; rw [q0]; exact hacc
      | succ j => exact q1 j (by omega)
    · intro _
      dsimp only
      cases hrest with
      | refl => rw [q0]; exact his
      | cons => exact q2 (by omega)
    · intro i ent hi
      cases i with
      | zero =>
        simp only [List.getElem?_cons_zero, Option.some.injEq] at hi
        subst hi
        dsimp only
        rw [q0]
        exact his
      | succ i => exact q4 i ent (by simpa using hi)

/-- **C109.** CRH in double precision computes every iteration accurately. There are scores `p 0`, `p 1`, …, `p n`: `p 0` has the
initial beliefs, up to one rounding; `p (j + 1)` is what an iteration makes of `p j`, up to the small errors that `CrhAccurate`
states. A run of `n ≥ 1` iterations returns `p n`, and the `i`-th of the `n` partial results, counted from 0, is `p (i + 1)`. -/
theorem C109_crh (l : List (S × V × X)) (am : Bool) (f : Option (V → X → X → Option (FP (.binary64 ω))))
    (d : Dataset S V X (FP (.binary64 ω))) (h : Dataset.mk' l am f = .ok d)
    (hsize : (allSources l).card * (allClaims l).card ^ 2 ≤ 2 ^ 46)
    (e : ℝ) (he : IsDouble e) (he0 : (2 : ℝ) ^ (-60 : ℤ) ≤ e) (he1 : e ≤ 1)
    (it : IterCfg (FP (.binary64 ω))) (pr : Option Prior)
    (fuel : Nat) (clock : Nat → FP (.binary64 ω)) (st : IterState (FP (.binary64 ω))) :
    (∀ r, (⟨.crh (FP.fin e), it, pr⟩ : AlgCfg (FP (.binary64 ω))).run d fuel clock st = .ok r →
      ∃ n p, r.iterations = some n ∧ CrhChain l e n p ∧ (1 ≤ n → ShowsScores l r (p n))) ∧
    (∀ rs, (⟨.crh (FP.fin e), it, pr⟩ : AlgCfg (FP (.binary64 ω))).runIter d fuel clock st = .ok rs →
      ∃ p, CrhChain l e rs.length p ∧ ∀ i r, rs[i]? = some r → ShowsScores l r (p (i + 1))) := by
  obtain rfl := ((mk'_ok_iff l one_ne_zero_fp am f d).1 h).1
  rw [run_eq, runIter_eq]
  cases hex : (⟨.crh (FP.fin e), it, pr⟩ : AlgCfg (FP (.binary64 ω))).exec (matsOf l f) fuel st with
  | error e => exact ⟨fun r h => (nomatch h), fun r h => (nomatch h)⟩
  | ok out =>
    obtain ⟨h0, t0, b0, n, st', t, b, L, hi, -, hs, -, hf, hit, hlog⟩ := (exec_ok_iff _ _ _ _ _).1 hex
    have hl : l ≠ [] := fun e => h0 ((numClaims_zero l f).2 e)
    rw [← length_sources, ← length_claims, pow_two] at hsize
    have hC1 : 1 ≤ (claims l).length * (claims l).length :=
      Nat.mul_pos (List.length_pos_iff.2 (claims_ne hl)) (List.length_pos_iff.2 (claims_ne hl))
    have hS : (sources l).length ≤ 2 ^ 53 := ((Nat.le_mul_of_pos_right _ hC1).trans hsize).trans (by norm_num)
    obtain ⟨t1, b1, hi1, hg, hb1⟩ := crh_start l f hl hS it pr (FP.fin e)
    rw [hi1] at hi
    cases hi
    have hf' : (⟨.crh (FP.fin e), it, pr⟩ : AlgCfg (FP (.binary64 ω))).finish t b = .ok (out.trust, out.belief) := hf
    rw [finish_other (by nofun)] at hf'
    cases hf'
    obtain ⟨q, q0, q1, q2, q3, q4⟩ := crh_chain l (e := e)
      (fun t p hp => crh_accurate l f hl he he0 he1 hsize t p hp) hs ((fun _ => 0), b1) rfl hg
    have hchain : CrhChain l e n q := ⟨fun c hc => by rw [q0]; exact hb1 c hc, q1⟩
    constructor
    · intro r hr
      cases hr
      refine ⟨n, q, by simp [resultOf, hit], hchain, fun hn => ?_⟩
      exact (q2 hn).shows _ _
    · intro rs hr
      cases hr
      refine ⟨q, ?_, ?_⟩
      · exact (by simpa [enum, hlog, initLog, Kind.logsInit, q3] using hchain)
      · intro i r hri
        simp only [enum, List.map_map, List.getElem?_map, List.getElem?_zipIdx, Option.map_map,
          Option.map_eq_some_iff] at hri
        obtain ⟨ent, he', rfl⟩ := hri
        rw [hlog] at he'
        exact (q4 i ent (by simpa [initLog, Kind.logsInit] using he')).shows _ _

/-- The hypotheses hold for a concrete dataset, the default `eps` and 20 iterations. -/
example (clock : Nat → FP (.binary64 ω)) : ∃ (d : Dataset Nat Nat Nat (FP (.binary64 ω))) (r : Result Nat Nat Nat (FP (.binary64 ω)))
    (e : ℝ) (p : Nat → Scores Nat Nat Nat),
    Dataset.mk' [(0, 0, 1), (1, 0, 2), (1, 1, 5), (2, 0, 2)] false none = .ok d ∧
    (⟨.crh (Arith.lit 1 100000), .fixed 20, some .voted⟩ : AlgCfg (FP (.binary64 ω))).run d 100 clock = .ok r ∧
    CrhChain [(0, 0, 1), (1, 0, 2), (1, 1, 5), (2, 0, 2)] e 20 p ∧
    ShowsScores [(0, 0, 1), (1, 0, 2), (1, 1, 5), (2, 0, 2)] r (p 20) := by
  have hd := (mk'_ok_iff [(0, 0, 1), (1, 0, 2), (1, 1, 5), (2, 0, 2)] (one_ne_zero_fp (R := .binary64 ω)) false none _).2
    ⟨rfl, .inr (by simp [NoRepeats]), by simp [optImpBad]⟩
  obtain ⟨e, he, h4, h5, h6⟩ := C83_crh_default (ω := ω)
  obtain ⟨-, -, g3⟩ := C83_crh _ _ _ _ hd (by simp) (by decide) e h4 h5 h6 (.fixed 20) (some .voted) 100 clock {}
  obtain ⟨r, hr, hk⟩ := g3 20 rfl (by norm_num)
  obtain ⟨n, p, hn, hc, hs⟩ := (C109_crh _ _ _ _ hd (by decide) e h4 h5 h6 (.fixed 20) (some .voted) 100 clock {}).1 r hr
  rw [hk] at hn
  cases hn
  exact ⟨_, r, e, p, hd, by rw [he]; exact hr, hc, hs (by norm_num)⟩

end TD
