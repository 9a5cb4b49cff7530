import Verif.Lemmas.TruthFinderPrecision
import Verif.Spec.TfAccurate
/-!
# Every iteration of TruthFinder in double precision is accurate (C111)
-/

namespace TD
open Spec Double
attribute [-instance] instBEqProd

variable {S V X : Type} [DecidableEq S] [DecidableEq V] [DecidableEq X] {ω : Platform}
local notation "D" => FP (Rounding.binary64 ω)

/-- What the trust scores are like. -/
def TfGood (l : List (S × V × X)) (T : S → D) : Prop :=
  ∀ s ∈ sources l, T s = FP.nan ∨ ∃ y : ℝ, T s = FP.fin y ∧ IsDouble y ∧ 1 / 4 ≤ y

/-- The beliefs an iteration computes. -/
noncomputable def tfNewB (l : List (S × V × X)) (gamma : D) (T : S → D) (c : V × X) : D := tfSig gamma (tfLog l (fun s => tfTau (T s)) c)

theorem tfNewB_nan {l : List (S × V × X)} {gamma : D} {T : S → D} {c : V × X} {s : S} (hs : s ∈ sourcesOf l c)
    (h : tfTau (T s) = FP.nan) : tfNewB l gamma T c = FP.nan := by
  have : tfLog l (fun s => tfTau (T s)) c = FP.nan := by
    unfold tfLog
    exact rowDot_nan (mem_sources_of_sourcesOf l hs) (if_pos ((mem_sourcesOf l).1 hs)) h
  unfold tfNewB
  rw [this, tfSig_nan]

theorem tfNewB_near {l : List (S × V × X)} (hS : (sources l).length ≤ 2 ^ 46) {g : ℝ} (hg0 : 0 ≤ g) (hg1 : g ≤ 1) {T : S → D}
    (hT : TfGood l T) {c : V × X} {t : S → ℝ} (h : ∀ s ∈ sourcesOf l c, T s = FP.fin (t s) ∧ t s < 1) :
    ∃ b, tfNewB l (FP.fin g) T c = FP.fin b ∧ 1 / 2 ≤ b ∧ b ≤ 1 ∧
      |b - 1 / (1 + Real.exp (-(g * ∑ s ∈ sourcesOf l c, -Real.log (1 - t s))))| ≤ ((sourcesOf l c).card + 21) / 2 ^ 52 := by
  have hcard : (sourcesOf l c).card ≤ 2 ^ 46 := (card_sourcesOf_le l c).trans hS
  have hgood : ∀ s ∈ sourcesOf l c, T s = FP.fin (t s) ∧ IsDouble (t s) ∧ 1 / 4 ≤ t s ∧ t s < 1 := by
    intro s hs
    obtain ⟨h1, h2⟩ := h s hs
    rcases hT s (mem_sources_of_sourcesOf l hs) with h3 | ⟨y, h3, h4, h5⟩
    · rw [h1] at h3; cases h3
    · rw [h1] at h3
      obtain rfl : t s = y := by injection h3
      exact ⟨h1, h4, h5, h2⟩
  obtain ⟨σ, h1, h2, h3, h4⟩ := log_near l hcard hgood
  have hx : 0 ≤ ∑ s ∈ sourcesOf l c, -Real.log (1 - t s) := by
    refine Finset.sum_nonneg fun s hs => ?_
    obtain ⟨-, -, g3, g4⟩ := hgood s hs
    have := Real.log_le_sub_one_of_pos (by linarith : 0 < 1 - t s)
    linarith
  obtain ⟨b, b1, -, b3, b4, b5⟩ := sig_near (ω := ω) hg0 hg1 h2 h3 hx h4 (by omega)
  refine ⟨b, by unfold tfNewB; rw [h1]; exact b1, b3, b4, b5.trans (le_of_eq ?_)⟩
  push_cast
  ring

/-- Beliefs are NaN or between 1/2 and 1, if an iteration takes place. -/
theorem tfNewB_range {l : List (S × V × X)} (hS : (sources l).length ≤ 2 ^ 46) {g : ℝ} (hg0 : 0 ≤ g) (hg1 : g ≤ 1) {T : S → D}
    (hT : TfGood l T) (h1 : ∀ s ∈ sources l, T s ≠ FP.fin 1) (c : V × X) :
    tfNewB l (FP.fin g) T c = FP.nan ∨ ∃ b, tfNewB l (FP.fin g) T c = FP.fin b ∧ 1 / 2 ≤ b ∧ b ≤ 1 := by
  by_cases h : ∃ s ∈ sourcesOf l c, tfTau (T s) = FP.nan
  · obtain ⟨s, hs, h⟩ := h
    exact .inl (tfNewB_nan hs h)
  · right
    push Not at h
    have : ∀ s ∈ (sources l).filter (fun s => (s, c) ∈ recorded l), ∃ y, T s = FP.fin y ∧ y < 1 := by
      intro s hs
      have hs' : s ∈ sourcesOf l c := by rw [← filter_sources_finset l c, List.mem_toFinset]; exact hs
      have hs0 := mem_sources_of_sourcesOf l hs'
      rcases hT s hs0 with h3 | ⟨y, h3, h4, h5⟩
      · exact absurd (by rw [h3]; exact tau_nan) (h s hs')
      · refine ⟨y, h3, ?_⟩
        rcases lt_trichotomy y 1 with hy | rfl | hy
        · exact hy
        · exact absurd h3 (h1 s hs0)
        · exact absurd (by rw [h3]; exact tau_over h4 hy) (h s hs')
    obtain ⟨t, ht⟩ := choose_on this
    obtain ⟨b, b1, b2, b3, -⟩ := tfNewB_near hS hg0 hg1 hT (c := c) (t := t) (fun s hs => ht s (by
      rw [← List.mem_toFinset, filter_sources_finset]; exact hs))
    exact ⟨b, b1, b2, b3⟩

/-- The trust scores an iteration computes. -/
theorem tfNewT_good {l : List (S × V × X)} (hS : (sources l).length ≤ 2 ^ 46) (hC : (claims l).length ≤ 2 ^ 46) {g : ℝ} (hg0 : 0 ≤ g)
    (hg1 : g ≤ 1) {T : S → D} (hT : TfGood l T) (h1 : ∀ s ∈ sources l, T s ≠ FP.fin 1) :
    TfGood l (tfTrust l (tfNewB l (FP.fin g) T)) := by
  intro s hs
  by_cases h : ∃ c ∈ claimsOf l s, tfNewB l (FP.fin g) T c = FP.nan
  · obtain ⟨c, hc, h⟩ := h
    exact .inl (rowDot_nan (mem_claims_of_claimsOf l hc) (if_pos ((mem_claimsOf l).1 hc)) h)
  · right
    push Not at h
    have : ∀ c ∈ (claims l).filter (fun c => (s, c) ∈ recorded l), ∃ y, tfNewB l (FP.fin g) T c = FP.fin y ∧ 1 / 2 ≤ y ∧ y ≤ 1 := by
      intro c hc
      have hc' : c ∈ claimsOf l s := by rw [← filter_claims_finset l s, List.mem_toFinset]; exact hc
      exact (tfNewB_range hS hg0 hg1 hT h1 c).resolve_left (h c hc')
    obtain ⟨b, hb⟩ := choose_on this
    obtain ⟨t, t1, t2, t3, -⟩ := trust_near l (claimsOf_nonempty l hs) ((card_claimsOf_le l s).trans hC) (b := b) (fun c hc => hb c (by
      rw [← List.mem_toFinset, filter_claims_finset]; exact hc))
    exact ⟨t, t1, t2, t3⟩

/-- The trust scores before and after each iteration of a loop. -/
theorem tf_chain {l : List (S × V × X)} (hS : (sources l).length ≤ 2 ^ 46) (hC : (claims l).length ≤ 2 ^ 46) {g : ℝ} (hg0 : 0 ≤ g)
    (hg1 : g ≤ 1) {rho t0 : D} {it : IterCfg D} {st st' : IterState D} {t b t' b' : Vec D} {n : Nat} {L : List (LogEntry D)}
    (h : Steps it (Kind.body (.truthFinder rho (FP.fin g) t0) (matsOf l none)) st t b n st' t' b' L) :
    ∀ T : S → D, t = (sources l).map T → TfGood l T → ∀ (i : Nat) (e : Vec D), (t :: L.map LogEntry.trust)[i]? = some e →
      ∃ T' : S → D, e = (sources l).map T' ∧ TfGood l T' ∧ ∀ ent : LogEntry D, L[i]? = some ent → (∀ s ∈ sources l, T' s ≠ FP.fin 1) ∧
        ent.trust = (sources l).map (tfTrust l (tfNewB l (FP.fin g) T')) ∧ ent.belief = (claims l).map (tfNewB l (FP.fin g) T') := by
  induction h with
  | refl =>
    intro T ht hT i e he
    cases i with
    | zero =>
      simp only [List.getElem?_cons_zero, Option.some.injEq] at he
      exact ⟨T, he ▸ ht, hT, by simp⟩
    | succ i => simp at he
  | cons hfin hbody hcmp hrest ih =>
    intro T ht hT i e he
    subst ht
    simp only [Kind.body] at hbody
    rw [tfBody_labels] at hbody
    split at hbody
    · cases hbody
    · rename_i hany
      cases hbody
      have h1 : ∀ s ∈ sources l, T s ≠ FP.fin 1 := by
        intro s hs h
        refine hany (List.any_eq_true.2 ⟨T s, List.mem_map_of_mem hs, ?_⟩)
        rw [h, FP.one_eq]
        show FNum.eq (.fin 1) (.fin 1) = true
        simp [FNum.eq, FNum.toEReal]
      cases i with
      | zero =>
        simp only [List.getElem?_cons_zero, Option.some.injEq] at he
        refine ⟨T, he.symm, hT, ?_⟩
        intro ent hent
        simp only [List.getElem?_cons_zero, Option.some.injEq] at hent
        subst hent
        exact ⟨h1, rfl, rfl⟩
      | succ i =>
        simp only [List.getElem?_cons_succ] at he ⊢
        exact ih _ rfl (tfNewT_good hS hC hg0 hg1 hT h1) i e he

/-- One iteration, as the results show it. -/
theorem tf_accurate {l : List (S × V × X)} (hS : (sources l).length ≤ 2 ^ 46) (hC : (claims l).length ≤ 2 ^ 46) {g : ℝ} (hg0 : 0 ≤ g)
    (hg1 : g ≤ 1) {T : S → D} (hT : TfGood l T) (h1 : ∀ s ∈ sources l, T s ≠ FP.fin 1) {r r' : Result S V X D}
    (hr : ∀ s, r.trust.get? s = if s ∈ sources l then some (T s) else none)
    (hr' : ∀ s, r'.trust.get? s = if s ∈ sources l then some (tfTrust l (tfNewB l (FP.fin g) T) s) else none)
    (hb' : ∀ v x, (r'.belief.get? v).bind (fun d => d.get? x) = if (v, x) ∈ claims l then some (tfNewB l (FP.fin g) T (v, x)) else none) :
    TfAccurate l g r r' := by
  have trustEq : ∀ {s x}, s ∈ sources l → (HasTrust r s x ↔ T s = x) := by
    intro s x hs
    unfold HasTrust
    rw [hr, if_pos hs, Option.some.injEq]
  have trustEq' : ∀ {s x}, s ∈ sources l → (HasTrust r' s x ↔ tfTrust l (tfNewB l (FP.fin g) T) s = x) := by
    intro s x hs
    unfold HasTrust
    rw [hr', if_pos hs, Option.some.injEq]
  have beliefEq : ∀ {c x}, c ∈ claims l → (HasBelief r' c x ↔ tfNewB l (FP.fin g) T c = x) := by
    intro c x hc
    unfold HasBelief
    rw [hb', if_pos hc, Option.some.injEq]
  constructor
  · intro s hs h
    have hs' := (mem_allSources l).1 hs
    exact h1 s hs' ((trustEq hs').1 h)
  · intro c hc t ht
    obtain ⟨b, b1, b2⟩ := tfNewB_near hS hg0 hg1 hT (c := c) (t := t) fun s hs =>
      ⟨(trustEq (mem_sources_of_sourcesOf l hs)).1 (ht s hs).1, (ht s hs).2⟩
    exact ⟨b, (beliefEq ((mem_allClaims l).1 hc)).2 b1, b2⟩
  · intro c hc s hs h
    have hs' := mem_sources_of_sourcesOf l hs
    refine (beliefEq ((mem_allClaims l).1 hc)).2 (tfNewB_nan hs ?_)
    rcases h with h | ⟨y, hy, h⟩
    · rw [(trustEq hs').1 h]; exact tau_nan
    · have e := (trustEq hs').1 h
      rcases hT s hs' with h3 | ⟨y', h3, h4, -⟩
      · rw [e] at h3; cases h3
      · rw [e] at h3
        obtain rfl : y = y' := by injection h3
        rw [e]; exact tau_over h4 hy
  · intro s hs b hb
    have hs' := (mem_allSources l).1 hs
    obtain ⟨t, t1, -, -, t4⟩ := trust_near l (claimsOf_nonempty l hs') ((card_claimsOf_le l s).trans hC) (b := b)
      (B := tfNewB l (FP.fin g) T) (fun c hc => by
        have e := (beliefEq (mem_claims_of_claimsOf l hc)).1 (hb c hc)
        refine ⟨e, ?_⟩
        rcases tfNewB_range hS hg0 hg1 hT h1 c with h3 | ⟨y, h3, h4⟩
        · rw [e] at h3; cases h3
        · rw [e] at h3
          obtain rfl : b c = y := by injection h3
          exact h4)
    exact ⟨t, (trustEq' hs').2 t1, t4⟩
  · intro s hs c hc h
    refine (trustEq' ((mem_allSources l).1 hs)).2 ?_
    exact rowDot_nan (mem_claims_of_claimsOf l hc) (if_pos ((mem_claimsOf l).1 hc)) ((beliefEq (mem_claims_of_claimsOf l hc)).1 h)

/-- **C111.** TruthFinder in double precision (no implications, dampening factor between 0 and 1, initial trust at least 1/4): every
iteration computes from the partial result before it the one after it, up to the errors that `TfAccurate` states, and every trust
score in a partial result is NaN or at least 1/4. The first partial result has the initial trust and beliefs 0, the last one the scores that `run` returns (C26). -/
theorem C111_truth_finder (l : List (S × V × X)) (am : Bool) (d : Dataset S V X D) (h : Dataset.mk' l am none = .ok d)
    (hS : (allSources l).card ≤ 2 ^ 46) (hC : (allClaims l).card ≤ 2 ^ 46) (rho : D) (g : ℝ) (hg0 : 0 ≤ g) (hg1 : g ≤ 1)
    (t0 : ℝ) (ht : IsDouble t0) (ht0 : 1 / 4 ≤ t0) (it : IterCfg D) (pr : Option Prior)
    (fuel : Nat) (clock : Nat → D) (st : IterState D) (rs : List (Result S V X D))
    (hrs : (⟨.truthFinder rho (FP.fin g) (FP.fin t0), it, pr⟩ : AlgCfg D).runIter d fuel clock st = .ok rs) :
    (∀ r ∈ rs, TrustRange l r) ∧
    (∀ r, rs[0]? = some r → (∀ s ∈ allSources l, HasTrust r s (FP.fin t0)) ∧ ∀ c ∈ allClaims l, HasBelief r c (FP.fin 0)) ∧
    ∀ (i : Nat) (r r' : Result S V X D), rs[i]? = some r → rs[i + 1]? = some r' → TfAccurate l g r r' := by
  obtain rfl := ((mk'_ok_iff l one_ne_zero_fp am none d).1 h).1
  rw [runIter_eq] at hrs
  rw [← length_sources] at hS
  rw [← length_claims] at hC
  cases hex : (⟨.truthFinder rho (FP.fin g) (FP.fin t0), it, pr⟩ : AlgCfg D).exec (matsOf l none) fuel st with
  | error e => rw [hex] at hrs; cases hrs
  | ok out =>
    rw [hex] at hrs
    obtain ⟨h0, t1, b1, n, st', t, b, L, hi, -, hs, -, hf, hit, hlog⟩ := (exec_ok_iff _ _ _ _ _).1 hex
    simp only [AlgCfg.init] at hi
    cases hi
    have hrep : List.replicate (matsOf l (none : Option (V → X → X → Option D))).numSources (FP.fin t0 : D) = (sources l).map fun _ => FP.fin t0 := by
      rw [List.map_const']; rfl
    rw [hrep] at hs hlog
    have key := tf_chain hS hC hg0 hg1 hs (fun _ => FP.fin t0) rfl (fun s _ => .inr ⟨t0, rfl, ht, ht0⟩)
    simp only [Except.ok.injEq] at hrs
    subst hrs
    have hlt : out.log.map LogEntry.trust = ((sources l).map fun _ => FP.fin t0) :: L.map LogEntry.trust := by
      rw [hlog]
      simp [initLog, Kind.logsInit]
    have hls : ∀ (i : Nat) (ent : LogEntry D), out.log[i + 1]? = some ent → L[i]? = some ent := by
      intro i ent hent
      rw [hlog] at hent
      simpa [initLog, Kind.logsInit] using hent
    have main : ∀ (i : Nat) (r : Result S V X D), ((enum out.log).map fun p => resultOf l p.2.trust p.2.belief (clock (p.1 + 1) -. clock 0) (some p.2.iterations))[i]? = some r →
        ∃ (ent : LogEntry D) (time : D), out.log[i]? = some ent ∧ r = resultOf l ent.trust ent.belief time (some ent.iterations) := by
      intro i r hri
      simp only [enum, List.map_map, List.getElem?_map, List.getElem?_zipIdx, Option.map_map, Option.map_eq_some_iff] at hri
      obtain ⟨ent, he', rfl⟩ := hri
      exact ⟨ent, _, he', rfl⟩
    have trust : ∀ (i : Nat) (ent : LogEntry D), out.log[i]? = some ent → (((sources l).map fun _ => FP.fin t0) :: L.map LogEntry.trust)[i]? = some ent.trust := by
      intro i ent hent
      rw [← hlt, List.getElem?_map, hent]
      rfl
    refine ⟨?_, ?_, ?_⟩
    · intro r hr s hs
      obtain ⟨i, hri⟩ := List.mem_iff_getElem?.1 hr
      obtain ⟨ent, time, hent, rfl⟩ := main i r hri
      obtain ⟨T, hT, hg, -⟩ := key i _ (trust i ent hent)
      have hs' := (mem_allSources l).1 hs
      unfold HasTrust
      rw [hT, trust_resultOf, if_pos hs']
      rcases hg s hs' with h1 | ⟨y, h1, -, h2⟩
      · exact .inl (by rw [h1])
      · exact .inr ⟨y, by rw [h1], h2⟩
    · intro r hr
      obtain ⟨ent, time, hent, rfl⟩ := main 0 r hr
      have e0 : ent.belief = (claims l).map fun _ => (FP.fin 0 : D) := by
        rw [hlog] at hent
        simp only [initLog, Kind.logsInit, if_true, List.singleton_append, List.getElem?_cons_zero, Option.some.injEq] at hent
        rw [← hent, ← FP.zero_eq]
        show zeros _ = _
        rw [List.map_const']
        rfl
      have e1 := trust 0 ent hent
      simp only [List.getElem?_cons_zero, Option.some.injEq] at e1
      refine ⟨fun s hs => ?_, fun c hc => ?_⟩
      · unfold HasTrust
        rw [← e1, trust_resultOf, if_pos ((mem_allSources l).1 hs)]
      · unfold HasBelief
        rw [e0, belief_resultOf, if_pos ((mem_allClaims l).1 hc)]
    · intro i r r' hr hr'
      obtain ⟨ent, time, hent, rfl⟩ := main i r hr
      obtain ⟨ent', time', hent', rfl⟩ := main (i + 1) r' hr'
      obtain ⟨T, hT, hg, hstep⟩ := key i _ (trust i ent hent)
      obtain ⟨h1, h2, h3⟩ := hstep ent' (hls i ent' hent')
      refine tf_accurate hS hC hg0 hg1 hg h1 ?_ ?_ ?_
      · intro s; rw [hT, trust_resultOf]
      · intro s; rw [h2, trust_resultOf]
      · intro v x; rw [h3, belief_resultOf]

/-- The hypotheses hold for a concrete dataset and one iteration; the first trust scores are below 1, so the beliefs are accurate. -/
example (clock : Nat → D) : ∃ (d : Dataset Nat Nat Nat D) (r r' : Result Nat Nat Nat D),
    Dataset.mk' [(0, 0, 1), (1, 0, 2), (1, 1, 5), (2, 0, 2)] false none = .ok d ∧
    (⟨.truthFinder (Arith.lit 1 2) (FP.fin (1 / 2)) (FP.fin (1 / 2)), .fixed 1, none⟩ : AlgCfg D).runIter d 5 clock = .ok [r, r'] ∧
    TfAccurate [(0, 0, 1), (1, 0, 2), (1, 1, 5), (2, 0, 2)] (1 / 2) r r' ∧
    ∀ s ∈ allSources [(0, 0, 1), (1, 0, 2), (1, 1, 5), (2, 0, 2)], HasTrust r s (FP.fin (1 / 2)) := by
  have hd := (mk'_ok_iff [(0, 0, 1), (1, 0, 2), (1, 1, 5), (2, 0, 2)] (one_ne_zero_fp (R := .binary64 ω)) false none _).2
    ⟨rfl, .inr (by simp [NoRepeats]), by simp [optImpBad]⟩
  have hany : (((sources [(0, 0, 1), (1, 0, 2), (1, 1, 5), (2, 0, 2)]).map fun _ => (FP.fin (1 / 2) : D)).any
      fun t => Arith.eq t (Arith.ofNat 1)) = false := by
    rw [List.any_eq_false]
    intro x hx
    obtain ⟨s, -, rfl⟩ := List.mem_map.1 hx
    rw [FP.one_eq]
    show ¬ FNum.eq (.fin (1 / 2)) (.fin 1) = true
    simp only [FNum.eq, FNum.toEReal]
    norm_num
  have hb := tfBody_labels (R := .binary64 ω) [(0, 0, 1), (1, 0, 2), (1, 1, 5), (2, 0, 2)] (Arith.lit 1 2) (FP.fin (1 / 2))
    (fun _ => FP.fin (1 / 2)) (zeros (matsOf (α := D) [(0, 0, 1), (1, 0, 2), (1, 1, 5), (2, 0, 2)] none).numClaims)
  rw [hany] at hb
  simp only [Bool.false_eq_true, if_false] at hb
  rw [List.map_const'] at hb
  have hex := (exec_ok_iff (⟨.truthFinder (Arith.lit 1 2) (FP.fin (1 / 2)) (FP.fin (1 / 2)), .fixed 1, none⟩ : AlgCfg D)
    (matsOf [(0, 0, 1), (1, 0, 2), (1, 1, 5), (2, 0, 2)] none) 5 {} ⟨_, _, _, _⟩).2 ⟨(numClaims_zero _ _).not.2 (by simp), _, _, 1, _, _, _, _, rfl, by norm_num,
      Steps.cons rfl hb rfl (.refl _ _ _), .inl rfl, rfl, rfl, rfl⟩
  have hri := runIter_eq (⟨.truthFinder (Arith.lit 1 2) (FP.fin (1 / 2)) (FP.fin (1 / 2)), .fixed 1, none⟩ : AlgCfg D)
    [(0, 0, 1), (1, 0, 2), (1, 1, 5), (2, 0, 2)] none 5 clock {}
  rw [hex] at hri
  simp only [initLog, Kind.logsInit, if_true, List.singleton_append, enum, List.zipIdx_cons, List.zipIdx_nil, List.map_cons, List.map_nil] at hri
  have hdbl : IsDouble (1 / 2) := ⟨1, -1, by norm_num, by norm_num, by norm_num, by norm_num⟩
  have := C111_truth_finder _ _ _ hd (by decide) (by decide) (Arith.lit 1 2) (1 / 2) (by norm_num) (by norm_num) (1 / 2) hdbl
    (by norm_num) (.fixed 1) none 5 clock {} _ hri
  refine ⟨_, _, _, hd, hri, this.2.2 0 _ _ rfl rfl, ?_⟩
  intro s hs
  have e : List.replicate (matsOf (α := D) [(0, 0, 1), (1, 0, 2), (1, 1, 5), (2, 0, 2)] none).numSources (FP.fin (1 / 2) : D) =
    (sources [(0, 0, 1), (1, 0, 2), (1, 1, 5), (2, 0, 2)]).map fun _ => FP.fin (1 / 2) := by rw [List.map_const']; rfl
  unfold HasTrust
  rw [e, trust_resultOf, if_pos ((mem_allSources _).1 hs)]

end TD
