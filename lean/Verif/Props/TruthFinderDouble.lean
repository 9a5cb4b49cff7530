import Verif.Lemmas.TruthFinderDouble
/-!
# TruthFinder in double precision

In exact arithmetic the trust scores of TruthFinder stay below 1 (C27).  Computed with doubles
they do not.
-/

namespace TD
open Spec Double
attribute [-instance] instBEqProd

section
variable {S V X : Type} [DecidableEq S] [DecidableEq V] [DecidableEq X]

variable {ω : Platform}
local notation "D" => FP (Rounding.binary64 ω)

/-- Once the trust of a source is above 1 it becomes NaN and stays NaN. -/
theorem tf_later {l : List (S × V × X)} {rho gamma t0 : D} {it : IterCfg D} {st st' : IterState D}
    {t b t' b' : Vec D} {n : Nat} {L}
    (h : Steps it (Kind.body (.truthFinder rho gamma t0) (matsOf l none)) st t b n st' t' b' L) (hn : 1 ≤ n)
    (P : S → Prop) (hP : ∀ s, P s → (claimsOf l s).Nonempty) (T : S → D) (ht : t = (sources l).map T)
    (hT : ∀ s, P s → tfTau (T s) = FP.nan) :
    ∃ T' : S → D, t' = (sources l).map T' ∧ ∀ s, P s → T' s = FP.nan := by
  induction h generalizing T with
  | refl => omega
  | cons hfin hbody hcmp hrest ih =>
    subst ht
    simp only [Kind.body] at hbody
    rw [tfBody_labels] at hbody
    split at hbody
    · cases hbody
    · cases hbody
      have hT' : ∀ s, P s → tfTrust l (fun c => tfSig gamma (tfLog l (fun s => tfTau (T s)) c)) s = FP.nan :=
        fun s hs => later_trust l (hP s hs) (hT s hs)
      cases hrest with
      | refl => exact ⟨_, rfl, hT'⟩
      | cons =>
        refine ih (by omega) _ rfl fun s hs => ?_
        rw [hT' s hs, tau_nan]

/-- The vectors after some iterations. -/
theorem tf_steps {l : List (S × V × X)} (hc : ∀ c ∈ allClaims l, 100 ≤ (sourcesOf l c).card) {rho : D}
    {it : IterCfg D} {st st' : IterState D} {b t' b' : Vec D} {n : Nat} {L}
    (h : Steps it (Kind.body (.truthFinder rho (Arith.lit 3 10) (Arith.lit 9 10)) (matsOf l none)) st
      ((sources l).map fun _ => Arith.lit 9 10) b n st' t' b' L) (hn : 1 ≤ n) :
    (n = 1 → b' = (claims l).map fun _ => FP.fin 1) ∧ ∃ T : S → D, t' = (sources l).map T ∧
      ∀ s, (claimsOf l s).card = 9 → (n = 1 → T s = FP.fin (1 + 2 ^ (-52 : ℤ))) ∧ (2 ≤ n → T s = FP.nan) := by
  generalize hk : (sources l).map (fun _ => (Arith.lit 9 10 : D)) = t at h
  cases h with
  | refl => omega
  | cons hfin hbody hcmp hrest =>
    subst hk
    simp only [Kind.body] at hbody
    rw [tfBody_labels] at hbody
    split at hbody
    · cases hbody
    · cases hbody
      have hB : ∀ c ∈ claims l, tfSig (Arith.lit 3 10 : D) (tfLog l (fun _ => tfTau (Arith.lit 9 10)) c) = FP.fin 1 :=
        fun c h => first_belief l (hc c ((mem_allClaims l).2 h))
      have hT : ∀ s, (claimsOf l s).card = 9 →
          tfTrust l (fun c => tfSig (Arith.lit 3 10 : D) (tfLog l (fun _ => tfTau (Arith.lit 9 10)) c)) s =
            FP.fin (1 + 2 ^ (-52 : ℤ)) :=
        fun s hs => tfTrust_nine l hs fun c hcm => hB c (mem_claims_of_claimsOf l hcm)
      cases hrest with
      | refl =>
        refine ⟨fun _ => List.map_congr_left hB, _, rfl, fun s hs => ⟨fun _ => hT s hs, fun h => by omega⟩⟩
      | cons hf2 hb2 hc2 hr2 =>
        refine ⟨fun h => by omega, ?_⟩
        obtain ⟨T', h1, h2⟩ := tf_later (Steps.cons hf2 hb2 hc2 hr2) (by omega) (fun s => (claimsOf l s).card = 9)
          (fun s hs => Finset.card_pos.1 (by omega)) _ rfl (fun s hs => by rw [hT s hs, tau_above])
        exact ⟨T', h1, fun s hs => ⟨fun h => by omega, fun _ => h2 s hs⟩⟩

/-- **C79.** Default parameters, no implications, every claim made by at least 100 sources: after one
iteration all beliefs are exactly 1 and every source that makes nine claims has trust
`1 + 2 ^ -52 > 1`; after two or more its trust is NaN. -/
theorem C79_above (l : List (S × V × X)) (am : Bool) (d : Dataset S V X D) (h : Dataset.mk' l am none = .ok d)
    (hc : ∀ c ∈ allClaims l, 100 ≤ (sourcesOf l c).card) (rho : D) (it : IterCfg D) (p : Option Prior) (fuel : Nat)
    (clock : Nat → D) (st : IterState D) (r : Result S V X D)
    (hr : AlgCfg.run ⟨.truthFinder rho (Arith.lit 3 10) (Arith.lit 9 10), it, p⟩ d fuel clock st = .ok r)
    (k : Nat) (hk : r.iterations = some k) :
    (k = 1 → ∀ v x b, (r.belief.get? v).bind (fun d => d.get? x) = some b → b = FP.fin 1) ∧
    ∀ s, (claimsOf l s).card = 9 →
      (k = 1 → r.trust.get? s = some (FP.fin (1 + 2 ^ (-52 : ℤ)))) ∧ (2 ≤ k → r.trust.get? s = some FP.nan) := by
  obtain rfl := ((mk'_ok_iff l one_ne_zero_fp am none d).1 h).1
  rw [run_eq] at hr
  cases he : AlgCfg.exec ⟨.truthFinder rho (Arith.lit 3 10) (Arith.lit 9 10), it, p⟩ (matsOf l none) fuel st with
  | error e => rw [he] at hr; cases hr
  | ok out =>
    rw [he] at hr
    cases hr
    obtain ⟨h0, t0, b0, n, st', t, b, L, hi, -, hs, -, hf, hit, hlog⟩ := (exec_ok_iff _ _ _ _ _).1 he
    have hn : out.iterations = k := by simpa [resultOf] using hk
    rw [hit] at hn
    subst hn
    have ht0 : t0 = (sources l).map fun _ => (Arith.lit 9 10 : D) := by
      simp only [AlgCfg.init, Except.ok.injEq, Prod.mk.injEq] at hi
      rw [← hi.1, List.map_const']
      rfl
    simp only [AlgCfg.finish, Except.ok.injEq, Prod.mk.injEq] at hf
    subst ht0
    by_cases hn1 : 1 ≤ n
    · obtain ⟨hb, T, hT, h9⟩ := tf_steps hc hs hn1
      rw [← hf.1, ← hf.2, hT]
      refine ⟨?_, fun s hs => ?_⟩
      · intro h1 v x y hy
        rw [hb h1, belief_resultOf] at hy
        split at hy
        · exact (Option.some.inj hy).symm
        · cases hy
      · have hms : s ∈ sources l := by
          obtain ⟨c, hc⟩ := Finset.card_pos.1 (by omega : 0 < (claimsOf l s).card)
          exact mem_sources_of_sourcesOf l ((mem_sourcesOf l).2 ((mem_claimsOf l).1 hc))
        rw [trust_resultOf, if_pos hms]
        exact ⟨fun h => by rw [(h9 s hs).1 h], fun h => by rw [(h9 s hs).2 h]⟩
    · exact ⟨fun h => by omega, fun s hs => ⟨fun h => by omega, fun h => by omega⟩⟩

/-- **C79.** For all parameters and implications: after at least one iteration a trust score of TruthFinder is NaN or
between 0 and `1 + n * 2 ^ -52`, where `n` is the number of claims of the source. -/
theorem C79_bound (l : List (S × V × X)) (am : Bool) (f : Option (V → X → X → Option D)) (d : Dataset S V X D)
    (h : Dataset.mk' l am f = .ok d) (rho gamma t0 : D) (it : IterCfg D) (p : Option Prior) (fuel : Nat)
    (clock : Nat → D) (st : IterState D) (r : Result S V X D)
    (hr : AlgCfg.run ⟨.truthFinder rho gamma t0, it, p⟩ d fuel clock st = .ok r)
    (k : Nat) (hk : r.iterations = some k) (hk1 : 1 ≤ k) (s : S) (hs : s ∈ allSources l)
    (hn : (claimsOf l s).card ≤ 2 ^ 52) :
    r.trust.get? s = some FP.nan ∨ ∃ y : ℝ, r.trust.get? s = some (FP.fin y) ∧ 0 ≤ y ∧
      y ≤ 1 + (claimsOf l s).card * 2 ^ (-52 : ℤ) := by
  have hrange := (C76_range l am f d h _ fuel clock st r hr k hk hk1).2
  obtain rfl := ((mk'_ok_iff l one_ne_zero_fp am f d).1 h).1
  have hms : s ∈ sources l := (mem_allSources l).1 hs
  have hne : (claimsOf l s).Nonempty := claimsOf_nonempty l hms
  rw [run_eq] at hr
  cases he : AlgCfg.exec ⟨.truthFinder rho gamma t0, it, p⟩ (matsOf l f) fuel st with
  | error e => rw [he] at hr; cases hr
  | ok out =>
    rw [he] at hr
    cases hr
    obtain ⟨h0, t1, b0, n, st', t, b, L, hi, -, hst, -, hf, hit, hlog⟩ := (exec_ok_iff _ _ _ _ _).1 he
    have hn' : out.iterations = k := by simpa [resultOf] using hk
    simp only [AlgCfg.finish, Except.ok.injEq, Prod.mk.injEq] at hf
    have key : ∃ B : V × X → D, (∀ c ∈ claims l, UN (B c)) ∧ t = (sources l).map (tfTrust l B) := by
      have hpost := (steps_range hst (init_pre hi)).1 (by omega)
      have hlen := (Steps.sized (c := ⟨.truthFinder rho gamma t0, it, p⟩) (matsOf_wf l f) hst
        (init_sized (matsOf_wf l f) hi)).1.2
      obtain ⟨st2, t2, b2, L2, L3, -, h2, -⟩ := hst.split (n - 1) (by omega)
      rw [show n - (n - 1) = 1 by omega] at h2
      obtain ⟨B, hB⟩ := exists_map (B := D) (nodup_claims l) (v := b) hlen
      cases h2 with
      | cons hfin hbody hcmp hrest =>
        cases hrest
        simp only [Kind.body, tfBody] at hbody
        cases hl : logTrust t2 with
        | none => rw [hl] at hbody; cases hbody
        | some tau =>
          rw [hl] at hbody
          cases hbody
          refine ⟨B, ?_, ?_⟩
          · intro c hc
            have := hpost.2 (B c)
            rw [hB] at this
            exact this (List.mem_map_of_mem hc)
          · rw [← tfA_labels l f, ← hB]
    obtain ⟨B, hB, ht⟩ := key
    have e : (resultOf l out.trust out.belief (clock 1 -. clock 0) (some out.iterations)).trust.get? s =
        some (tfTrust l B s) := by
      rw [← hf.1, ht, trust_resultOf, if_pos hms]
    rcases tfTrust_bound l hne hn hB with h1 | ⟨y, h1, h2⟩
    · exact .inl (by rw [← h1]; exact e)
    · refine .inr ⟨y, by rw [← h1]; exact e, ?_, h2⟩
      have := hrange.1 s _ e
      rw [h1] at this
      rcases this with h3 | h3
      · exact absurd h3 (by intro h; cases h)
      · exact_mod_cast (show (0 : EReal) ≤ ((y : ℝ) : EReal) from h3)

/-! ### Concrete cases -/

/-- 100 sources making the same nine claims. -/
def hundredTriples : List (Nat × Nat × Nat) :=
  (List.range 100).flatMap fun s => (List.range 9).map fun v => (s, v, 0)

theorem mem_hundred {s v x : Nat} : (s, v, x) ∈ hundredTriples ↔ s < 100 ∧ v < 9 ∧ x = 0 := by
  simp only [hundredTriples, List.mem_flatMap, List.mem_range, List.mem_map, Prod.mk.injEq]
  constructor
  · rintro ⟨a, ha, b, hb, rfl, rfl, rfl⟩; exact ⟨ha, hb, rfl⟩
  · rintro ⟨hs, hv, rfl⟩; exact ⟨s, hs, v, hv, rfl, rfl, rfl⟩

theorem hundred_noRepeats : NoRepeats hundredTriples := by
  have e : hundredTriples.map (fun t => (t.1, t.2.1)) = (List.range 100).product (List.range 9) := by
    simp only [hundredTriples, List.map_flatMap, List.map_map, List.product]
    rfl
  unfold NoRepeats
  rw [e]
  exact List.nodup_range.product List.nodup_range

theorem hundred_recorded : recorded hundredTriples = hundredTriples := recorded_eq_self hundred_noRepeats

theorem hundred_sources {c : Nat × Nat} (hc : c ∈ allClaims hundredTriples) :
    100 ≤ (sourcesOf hundredTriples c).card := by
  obtain ⟨⟨s, v, x⟩, ht, rfl⟩ := (mem_claims _).1 ((mem_allClaims _).1 hc)
  rw [hundred_recorded, mem_hundred] at ht
  have hsub : Finset.range 100 ⊆ sourcesOf hundredTriples (v, x) := by
    intro s' hs'
    rw [mem_sourcesOf, hundred_recorded, mem_hundred]
    exact ⟨Finset.mem_range.1 hs', ht.2⟩
  simpa using Finset.card_le_card hsub

theorem hundred_claims {s : Nat} (hs : s < 100) : (claimsOf hundredTriples s).card = 9 := by
  have e : claimsOf hundredTriples s = (Finset.range 9).image fun v => (v, 0) := by
    ext ⟨v, x⟩
    rw [mem_claimsOf, hundred_recorded, mem_hundred]
    simp only [Finset.mem_image, Finset.mem_range, Prod.mk.injEq]
    constructor
    · rintro ⟨-, hv, rfl⟩; exact ⟨v, hv, rfl, rfl⟩
    · rintro ⟨w, hw, rfl, rfl⟩; exact ⟨hs, hw, rfl⟩
  rw [e, Finset.card_image_of_injective _ (fun a b h => (Prod.mk.inj h).1), Finset.card_range]

/-- The hypotheses of C79 can be met, and one iteration is possible. -/
example (clock : Nat → D) : ∃ (d : Dataset Nat Nat Nat D) (r : Result Nat Nat Nat D),
    Dataset.mk' hundredTriples false none = .ok d ∧
    AlgCfg.run ⟨.truthFinder (Arith.lit 1 2) (Arith.lit 3 10) (Arith.lit 9 10), .fixed 1, some .voted⟩ d 5 clock = .ok r ∧
    r.iterations = some 1 ∧ r.trust.get? 42 = some (FP.fin (1 + 2 ^ (-52 : ℤ))) := by
  have hd := (mk'_ok_iff hundredTriples (one_ne_zero_fp (R := .binary64 ω)) false none _).2
    ⟨rfl, .inr hundred_noRepeats, by simp [optImpBad]⟩
  obtain ⟨t, ht, -, h2, -⟩ := tau_start
  have hany : (((sources hundredTriples).map fun _ => (Arith.lit 9 10 : D)).any
      fun t => Arith.eq t (Arith.ofNat 1)) = false := by
    rw [List.any_eq_false]
    intro x hx
    obtain ⟨s, -, rfl⟩ := List.mem_map.1 hx
    intro hc
    have hx1 : (Arith.lit 9 10 : D) = FP.fin 1 := by
      have key : ∀ x : FNum, FNum.eq x (.fin 1) = true → x = .fin 1 := by
        intro x hx
        cases x with
        | nan => simp [FNum.eq] at hx
        | pinf => simp [FNum.eq, FNum.toEReal, ← EReal.coe_one] at hx
        | ninf => simp [FNum.eq, FNum.toEReal, ← EReal.coe_one] at hx
        | fin y =>
          have : y = 1 := by simpa [FNum.eq, FNum.toEReal] using hx
          rw [this]
      rw [FP.one_eq] at hc
      exact key _ hc
    rw [hx1] at ht
    have e : (FP.fin 1 -. FP.fin 1 : D) = FP.fin 0 := by
      rw [fp_sub_fin (.binary64 ω), sub_self]; exact rep_zero
    unfold tfTau at ht
    rw [FP.one_eq, e] at ht
    have : FNum.neg (FNum.log (.binary64 ω) (.fin 0)) = .fin t := ht
    simp [FNum.log, FNum.neg] at this
  have hnc : (matsOf (α := D) hundredTriples none).numClaims ≠ 0 := by
    have : ((0 : Nat), (0 : Nat)) ∈ claims hundredTriples := by
      rw [mem_claims]
      exact ⟨(0, 0, 0), by rw [hundred_recorded, mem_hundred]; norm_num, rfl⟩
    intro h
    exact absurd (List.length_eq_zero_iff.1 h) (List.ne_nil_of_mem this)
  have hex : ∃ out, AlgCfg.exec (α := D) ⟨.truthFinder (Arith.lit 1 2) (Arith.lit 3 10) (Arith.lit 9 10), .fixed 1, some .voted⟩
      (matsOf hundredTriples none) 5 {} = .ok out ∧ out.iterations = 1 := by
    have hb := tfBody_labels (R := .binary64 ω) hundredTriples (Arith.lit 1 2) (Arith.lit 3 10) (fun _ => Arith.lit 9 10)
      (zeros (matsOf (α := D) hundredTriples none).numClaims)
    rw [hany] at hb
    simp only [Bool.false_eq_true, if_false] at hb
    rw [List.map_const'] at hb
    exact ⟨⟨_, _, _, _⟩, (exec_ok_iff _ _ _ _ _).2 ⟨hnc, _, _, 1, _, _, _, _, rfl, by norm_num,
      Steps.cons rfl hb rfl (.refl _ _ _), .inl rfl, rfl, rfl, rfl⟩, rfl⟩
  obtain ⟨out, he, hit⟩ := hex
  have hr : AlgCfg.run ⟨.truthFinder (Arith.lit 1 2) (Arith.lit 3 10) (Arith.lit 9 10), .fixed 1, some .voted⟩
      (datasetOf (α := D) hundredTriples none) 5 clock {} = .ok (resultOf hundredTriples out.trust out.belief
        (clock 1 -. clock 0) (some out.iterations)) := by
    rw [run_eq, he]
  have hk : (resultOf hundredTriples out.trust out.belief (clock 1 -. clock 0) (some out.iterations)).iterations = some 1 := by
    rw [hit]; rfl
  exact ⟨_, _, hd, hr, hk, ((C79_above _ _ _ hd (fun c hc => hundred_sources hc) _ _ _ _ _ _ _ hr 1 hk).2 42
    (hundred_claims (by norm_num))).1 rfl⟩

end
end TD
