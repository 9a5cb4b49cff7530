import Verif.Props.Equilibrium
/-!
# Small changes of the settings of TruthFinder change the scores little (C117)

Exact arithmetic. The settings are the implications, the influence parameter, the dampening factor and the initial trust; `settingChange`
(Spec/Influence) measures how different two of them are.
-/

namespace TD
open Spec Ex
attribute [-instance] instBEqProd

variable {S V X : Type} [DecidableEq S] [DecidableEq V] [DecidableEq X] {l : List (S × V × X)}
  {f f' : Option (V → X → X → Option ℝ)}

/-- Scores computed from close confidences are close: one direction. -/
theorem step_close_le {rho rho' gamma gamma' F : ℝ} (hF : 0 ≤ F) {p q : Scores S V X}
    (h : ∀ c ∈ allClaims l, |conf l f rho gamma p c - conf l f' rho' gamma' q c| ≤ F) :
    (∀ s ∈ sources l, trustTau (tfStep l (impVal f') rho' gamma' q) s ≤ trustTau (tfStep l (impVal f) rho gamma p) s + F) ∧
    ∀ c ∈ allClaims l, (tfStep l (impVal f') rho' gamma' q).2 c ≤ (tfStep l (impVal f) rho gamma p).2 c + F := by
  have gap : ∀ c ∈ allClaims l,
      (1 - (tfStep l (impVal f) rho gamma p).2 c) * Real.exp (-F) ≤ 1 - (tfStep l (impVal f') rho' gamma' q).2 c := by
    intro c hc
    rw [tfStep_belief, tfStep_belief, one_sub_sig, one_sub_sig]
    exact sig_gap hF (h c hc)
  have pos : ∀ (g : Option (V → X → X → Option ℝ)) (r a : ℝ) (p : Scores S V X) c, 0 < 1 - (tfStep l (impVal g) r a p).2 c := by
    intro g r a p c
    rw [tfStep_belief, one_sub_sig]
    positivity
  have tpos : ∀ (g : Option (V → X → X → Option ℝ)) (r a : ℝ) (p : Scores S V X), ∀ s ∈ sources l, 1 - (tfStep l (impVal g) r a p).1 s =
      (∑ c ∈ claimsOf l s, (1 - (tfStep l (impVal g) r a p).2 c)) / (claimsOf l s).card ∧
      0 < 1 - (tfStep l (impVal g) r a p).1 s := by
    intro g r a p s hs
    have hpos : (0 : ℝ) < (claimsOf l s).card := by exact_mod_cast (claimsOf_nonempty l hs).card_pos
    have e : 1 - (tfStep l (impVal g) r a p).1 s =
        (∑ c ∈ claimsOf l s, (1 - (tfStep l (impVal g) r a p).2 c)) / (claimsOf l s).card := by
      rw [tfStep_trust, Finset.sum_sub_distrib, Finset.sum_const, nsmul_eq_mul, mul_one, sub_div, div_self hpos.ne']
    refine ⟨e, ?_⟩
    rw [e]
    exact div_pos (Finset.sum_pos (fun c _ => pos g r a p c) (claimsOf_nonempty l hs)) hpos
  constructor
  · intro s hs
    have k : (1 - (tfStep l (impVal f) rho gamma p).1 s) * Real.exp (-F) ≤ 1 - (tfStep l (impVal f') rho' gamma' q).1 s := by
      rw [(tpos f rho gamma p s hs).1, (tpos f' rho' gamma' q s hs).1, div_mul_eq_mul_div, Finset.sum_mul]
      exact div_le_div_of_nonneg_right (Finset.sum_le_sum fun c hc => gap c ((mem_allClaims l).2 (mem_claims_of_claimsOf l hc)))
        (Nat.cast_nonneg _)
    have := Real.log_le_log (mul_pos (tpos f rho gamma p s hs).2 (Real.exp_pos _)) k
    rw [Real.log_mul (tpos f rho gamma p s hs).2.ne' (Real.exp_pos _).ne', Real.log_exp] at this
    unfold trustTau
    linarith
  · intro c hc
    have k := gap c hc
    have k1 := pos f rho gamma p c
    have k2 : 1 - (tfStep l (impVal f) rho gamma p).2 c ≤ 1 := by
      rw [tfStep_belief]
      have := (sigmoid_pos (-conf l f rho gamma p c)).le
      linarith
    have k3 := Real.add_one_le_exp (-F)
    nlinarith

/-- Scores computed from close confidences are close. -/
theorem step_close {rho rho' gamma gamma' F : ℝ} (hF : 0 ≤ F) {p q : Scores S V X}
    (h : ∀ c ∈ allClaims l, |conf l f rho gamma p c - conf l f' rho' gamma' q c| ≤ F) :
    (∀ s ∈ sources l, |trustTau (tfStep l (impVal f) rho gamma p) s - trustTau (tfStep l (impVal f') rho' gamma' q) s| ≤ F) ∧
    ∀ c ∈ allClaims l, |(tfStep l (impVal f) rho gamma p).2 c - (tfStep l (impVal f') rho' gamma' q).2 c| ≤ F := by
  have k1 := step_close_le hF h
  have k2 := step_close_le (p := q) (q := p) hF fun c hc => by rw [abs_sub_comm]; exact h c hc
  refine ⟨fun s hs => ?_, fun c hc => ?_⟩
  · have := k1.1 s hs
    have := k2.1 s hs
    rw [abs_le]
    constructor <;> linarith
  · have := k1.2 c hc
    have := k2.2 c hc
    rw [abs_le]
    constructor <;> linarith

/-- The confidences with two settings. -/
theorem conf_setting {rho rho' gamma gamma' M : ℝ} {q : Scores S V X} (h0 : ∀ s ∈ sources l, 0 ≤ trustTau q s)
    (hM : ∀ s ∈ sources l, trustTau q s ≤ M) (c : V × X) :
    |conf l f rho gamma q c - conf l f' rho' gamma' q c| ≤ settingChange l f f' rho rho' gamma gamma' c * M := by
  have hs : ∀ d : V × X, |∑ s ∈ sourcesOf l d, trustTau q s| ≤ (sourcesOf l d).card * M := by
    intro d
    rw [abs_of_nonneg (Finset.sum_nonneg fun s hs => h0 s (mem_sources_of_sourcesOf l hs)), ← nsmul_eq_mul]
    exact Finset.sum_le_card_nsmul _ _ M fun s hs => hM s (mem_sources_of_sourcesOf l hs)
  have e : conf l f rho gamma q c - conf l f' rho' gamma' q c = (gamma - gamma') * (∑ s ∈ sourcesOf l c, trustTau q s) +
      ∑ d ∈ (rivals l c).erase c, (gamma * rho * impVal f c.1 d.2 c.2 - gamma' * rho' * impVal f' c.1 d.2 c.2) * ∑ s ∈ sourcesOf l d, trustTau q s := by
    simp only [conf, sub_mul, Finset.sum_sub_distrib, mul_add, mul_assoc, ← Finset.mul_sum]
    ring
  rw [e]
  unfold settingChange
  rw [add_mul, mul_assoc, Finset.sum_mul]
  refine (abs_add_le _ _).trans (add_le_add ?_ ((Finset.abs_sum_le_sum_abs _ _).trans (Finset.sum_le_sum fun d _ => ?_)))
  · rw [abs_mul]
    exact mul_le_mul_of_nonneg_left (hs c) (abs_nonneg _)
  · rw [abs_mul]
    exact (mul_le_mul_of_nonneg_left (hs d) (abs_nonneg _)).trans_eq (mul_assoc _ _ _).symm

/-- One iteration with two settings. -/
theorem step_setting {rho rho' gamma gamma' kappa E M D : ℝ} (hg : 0 ≤ gamma)
    (hk : ∀ c ∈ allClaims l, amplification l f rho gamma c ≤ kappa) (hk0 : 0 ≤ kappa) (hE : 0 ≤ E) (hM : 0 ≤ M) (hD0 : 0 ≤ D)
    (hD : ∀ c ∈ allClaims l, settingChange l f f' rho rho' gamma gamma' c ≤ D) {p q : Scores S V X}
    (h : ∀ s ∈ sources l, |trustTau p s - trustTau q s| ≤ E) (h0 : ∀ s ∈ sources l, 0 ≤ trustTau q s) (h1 : ∀ s ∈ sources l, trustTau q s ≤ M) :
    (∀ s ∈ sources l, |trustTau (tfStep l (impVal f) rho gamma p) s - trustTau (tfStep l (impVal f') rho' gamma' q) s| ≤ kappa * E + D * M) ∧
    ∀ c ∈ allClaims l, |(tfStep l (impVal f) rho gamma p).2 c - (tfStep l (impVal f') rho' gamma' q).2 c| ≤ kappa * E + D * M := by
  refine step_close (add_nonneg (mul_nonneg hk0 hE) (mul_nonneg hD0 hM)) fun c hc => ?_
  refine (abs_sub_le _ (conf l f rho gamma q c) _).trans (add_le_add (conf_diff hg hk hE h hc) ?_)
  exact (conf_setting h0 h1 c).trans (mul_le_mul_of_nonneg_right (hD c hc) hM)

theorem settingChange_nonneg (rho rho' gamma gamma' : ℝ) (c : V × X) : 0 ≤ settingChange l f f' rho rho' gamma gamma' c := by
  unfold settingChange
  positivity

/-- After `n` iterations with two settings. -/
theorem tf_settings (hl : l ≠ []) {rho rho' gamma gamma' kappa kappa' D t t' : ℝ} (hg : 0 ≤ gamma) (hg' : 0 ≤ gamma')
    (hk : ∀ c ∈ allClaims l, amplification l f rho gamma c ≤ kappa) (hk1 : kappa < 1)
    (hk' : ∀ c ∈ allClaims l, amplification l f' rho' gamma' c ≤ kappa') (hk1' : kappa' < 1)
    (hD : ∀ c ∈ allClaims l, settingChange l f f' rho rho' gamma gamma' c ≤ D) (h0' : 0 ≤ t') (h1' : t' < 1) (n : Nat) :
    (∀ s ∈ sources l, |trustTau (tfAt l f rho gamma t n) s - trustTau (tfAt l f' rho' gamma' t' n) s| ≤
      kappa ^ n * |Real.log (1 - t) - Real.log (1 - t')| + D * startGap kappa' t' t' / (1 - kappa)) ∧
    (1 ≤ n → ∀ c ∈ allClaims l, |(tfAt l f rho gamma t n).2 c - (tfAt l f' rho' gamma' t' n).2 c| ≤
      kappa ^ n * |Real.log (1 - t) - Real.log (1 - t')| + D * startGap kappa' t' t' / (1 - kappa)) := by
  have hk0 := kappa_nonneg hl hg hk
  have hk0' := kappa_nonneg hl hg' hk'
  have hD0 : 0 ≤ D := by
    obtain ⟨c, hc⟩ := allClaims_nonempty hl
    exact (settingChange_nonneg _ _ _ _ c).trans (hD c hc)
  have hM : 0 ≤ startGap kappa' t' t' :=
    (div_nonneg (Real.log_nonneg (by norm_num)) (by linarith)).trans (le_max_right _ _)
  have hq : 0 ≤ D * startGap kappa' t' t' / (1 - kappa) := div_nonneg (mul_nonneg hD0 hM) (by linarith)
  induction n with
  | zero =>
    refine ⟨fun s hs => ?_, fun h => absurd h (by norm_num)⟩
    have e : ∀ (g : Option (V → X → X → Option ℝ)) (r a t : ℝ), trustTau (tfAt l g r a t 0) s = -Real.log (1 - t) := fun _ _ _ _ => rfl
    rw [e, e, pow_zero, one_mul, neg_sub_neg, abs_sub_comm]
    linarith
  | succ n ih =>
    have h := step_setting (f := f) (f' := f') (rho := rho) (rho' := rho') hg hk hk0
      (add_nonneg (mul_nonneg (pow_nonneg hk0 n) (abs_nonneg _)) hq) hM hD0 hD ih.1
      (fun s hs => tau_nonneg (tf_inv h0' h1' n) hs)
      (fun s hs => tau_bounded hg' hk' hk0' (startGap_grows hk1') h0' h1' ((le_max_left _ _).trans (le_max_left _ _)) n s hs)
    rw [← tf_succ, ← tf_succ] at h
    have e : kappa * (kappa ^ n * |Real.log (1 - t) - Real.log (1 - t')| + D * startGap kappa' t' t' / (1 - kappa)) + D * startGap kappa' t' t' =
        kappa ^ (n + 1) * |Real.log (1 - t) - Real.log (1 - t')| + D * startGap kappa' t' t' / (1 - kappa) := by
      have : (1 : ℝ) - kappa ≠ 0 := by linarith
      field_simp
      ring
    rw [e] at h
    exact ⟨h.1, fun _ => h.2⟩

/-- **C117.** TruthFinder in exact arithmetic on the same triples with two settings, with amplifications at most `kappa < 1` and `kappa' < 1`,
and with `settingChange` at most `D` for every claim: after the same number `n` of iterations, every trust score of the one run differs from
that of the other by at most `kappa ^ n * |log (1 - t) - log (1 - t')| + D * max (-log (1 - t')) (log 2 / (1 - kappa')) / (1 - kappa)`, and so
does every belief if `1 ≤ n`. -/
theorem C117_runs (l : List (S × V × X)) (hl : l ≠ []) (am am' : Bool) (d d' : Dataset S V X Ex) (hd : Dataset.mk' l am (finImp f) = .ok d)
    (hd' : Dataset.mk' l am' (finImp f') = .ok d') {rho rho' gamma gamma' kappa kappa' D t t' : ℝ} (hg : 0 ≤ gamma) (hg' : 0 ≤ gamma')
    (hk : ∀ c ∈ allClaims l, amplification l f rho gamma c ≤ kappa) (hk1 : kappa < 1)
    (hk' : ∀ c ∈ allClaims l, amplification l f' rho' gamma' c ≤ kappa') (hk1' : kappa' < 1)
    (hD : ∀ c ∈ allClaims l, settingChange l f f' rho rho' gamma gamma' c ≤ D) (h0 : 0 ≤ t) (h1 : t < 1) (h0' : 0 ≤ t') (h1' : t' < 1)
    {pr pr' : Option Prior} {it it' : IterCfg Ex} {fuel fuel' : Nat} {clock clock' : Nat → Ex} {st st' : IterState Ex} {r r' : Result S V X Ex}
    (hr : AlgCfg.run ⟨.truthFinder (fin rho) (fin gamma) (fin t), it, pr⟩ d fuel clock st = .ok r)
    (hr' : AlgCfg.run ⟨.truthFinder (fin rho') (fin gamma') (fin t'), it', pr'⟩ d' fuel' clock' st' = .ok r')
    {n : Nat} (hn : r.iterations = some n) (hn' : r'.iterations = some n) :
    (∀ s ∈ allSources l, ∃ y y' : ℝ, TrustIn r s y ∧ TrustIn r' s y' ∧
      |y - y'| ≤ kappa ^ n * |Real.log (1 - t) - Real.log (1 - t')| + D * startGap kappa' t' t' / (1 - kappa)) ∧
    (1 ≤ n → ∀ c ∈ allClaims l, ∃ b b' : ℝ, BeliefIn r c b ∧ BeliefIn r' c b' ∧
      |b - b'| ≤ kappa ^ n * |Real.log (1 - t) - Real.log (1 - t')| + D * startGap kappa' t' t' / (1 - kappa)) := by
  obtain rfl := mk'_ex hd
  obtain rfl := mk'_ex hd'
  obtain ⟨a, e, rep⟩ := (tf_implements (l := l) f it pr rho gamma t h0 h1).run_reports (by simp) hr
  obtain ⟨a', e', rep'⟩ := (tf_implements (l := l) f' it' pr' rho' gamma' t' h0' h1').run_reports (by simp) hr'
  rw [e] at hn
  rw [e'] at hn'
  cases hn
  cases hn'
  obtain ⟨k1, k2⟩ := tf_settings hl hg hg' hk hk1 hk' hk1' hD h0' h1' n
  refine ⟨fun s hs => ⟨_, _, (rep.trustIn hs).2 rfl, (rep'.trustIn hs).2 rfl, ?_⟩, fun h c hc =>
    ⟨_, _, (rep.beliefIn hc).2 rfl, (rep'.beliefIn hc).2 rfl, k2 h c hc⟩⟩
  have hs' := (mem_allSources l).1 hs
  exact (trust_tau (tf_inv h0 h1 n) (tf_inv h0' h1' n) hs').trans (k1 s hs')

/-- **C117.** The equilibria of the two settings differ by at most `D * log 2 / ((1 - kappa) (1 - kappa'))`. -/
theorem C117_equilibria (l : List (S × V × X)) {rho rho' gamma gamma' kappa kappa' D : ℝ} (hg : 0 ≤ gamma) (hg' : 0 ≤ gamma')
    (hk : ∀ c ∈ allClaims l, amplification l f rho gamma c ≤ kappa) (hk1 : kappa < 1)
    (hk' : ∀ c ∈ allClaims l, amplification l f' rho' gamma' c ≤ kappa') (hk1' : kappa' < 1)
    (hD : ∀ c ∈ allClaims l, settingChange l f f' rho rho' gamma gamma' c ≤ D)
    (q q' : Scores S V X) (hq : ∀ s ∈ allSources l, 0 ≤ q.1 s ∧ q.1 s < 1) (hq' : ∀ s ∈ allSources l, 0 ≤ q'.1 s ∧ q'.1 s < 1)
    (hb : Balanced l f rho gamma q) (hb' : Balanced l f' rho' gamma' q') :
    (∀ s ∈ allSources l, |q.1 s - q'.1 s| ≤ D * Real.log 2 / ((1 - kappa) * (1 - kappa'))) ∧
    ∀ c ∈ allClaims l, |q.2 c - q'.2 c| ≤ D * Real.log 2 / ((1 - kappa) * (1 - kappa')) := by
  by_cases hl : l = []
  · subst hl
    exact ⟨fun s hs => absurd hs (by simp [allSources, recorded, firstsBy]), fun c hc => absurd hc (by simp [allClaims, recorded, firstsBy])⟩
  have hk0 := kappa_nonneg hl hg hk
  have hk0' := kappa_nonneg hl hg' hk'
  have hD0 : 0 ≤ D := by
    obtain ⟨c, hc⟩ := allClaims_nonempty hl
    exact (settingChange_nonneg _ _ _ _ c).trans (hD c hc)
  have i : TfInv l q := fun s hs => hq s ((mem_allSources l).2 hs)
  have i' : TfInv l q' := fun s hs => hq' s ((mem_allSources l).2 hs)
  have hM : 0 ≤ Real.log 2 / (1 - kappa') := div_nonneg (Real.log_nonneg (by norm_num)) (by linarith)
  obtain ⟨s0, hs0, hmax⟩ := Finset.exists_max_image (allSources l) (fun s => |trustTau q s - trustTau q' s|) (allSources_nonempty hl)
  generalize hX : |trustTau q s0 - trustTau q' s0| = B at hmax
  have hB : 0 ≤ B := hX ▸ abs_nonneg _
  obtain ⟨c1, c2⟩ := step_setting (f := f) (f' := f') (rho := rho) (rho' := rho') (p := q) (q := q') hg hk hk0 hB hM hD0 hD
    (fun s hs => hmax s ((mem_allSources l).2 hs)) (fun s hs => tau_nonneg i' hs) (balanced_tau hl hg' hk' hk1' i' hb')
  have e : ∀ {g : Option (V → X → X → Option ℝ)} {r a : ℝ} {q : Scores S V X}, Balanced l g r a q → ∀ s ∈ sources l,
      trustTau (tfStep l (impVal g) r a q) s = trustTau q s := by
    intro g r a q hb s hs
    unfold trustTau
    rw [hb.1 s ((mem_allSources l).2 hs)]
  have hle : kappa * B + D * (Real.log 2 / (1 - kappa')) ≤ D * Real.log 2 / ((1 - kappa) * (1 - kappa')) := by
    have h0 := c1 s0 ((mem_allSources l).1 hs0)
    rw [e hb s0 ((mem_allSources l).1 hs0), e hb' s0 ((mem_allSources l).1 hs0), hX] at h0
    have eq : D * Real.log 2 / ((1 - kappa) * (1 - kappa')) = D * (Real.log 2 / (1 - kappa')) / (1 - kappa) := by
      rw [mul_div_assoc', div_div, mul_comm (1 - kappa)]
    rw [eq, le_div_iff₀ (by linarith)]
    nlinarith
  refine ⟨fun s hs => ?_, fun c hc => ?_⟩
  · have hs' := (mem_allSources l).1 hs
    have h := (c1 s hs').trans hle
    rw [e hb s hs', e hb' s hs'] at h
    exact (trust_tau i i' hs').trans h
  · have h := (c2 c hc).trans hle
    rwa [hb.2 c hc, hb'.2 c hc] at h

namespace Settings

theorem changed : ∀ c ∈ allClaims Contracts.triples,
    settingChange Contracts.triples Contracts.contradict Contracts.contradict (1 / 2) (1 / 2) (3 / 10) (301 / 1000) c ≤ 25 / 10000 := by
  intro c hc
  have e : allClaims Contracts.triples = {(0, 1), (0, 2), (1, 5)} := by decide
  rw [e] at hc
  simp only [Finset.mem_insert, Finset.mem_singleton] at hc
  have c1 : (sourcesOf Contracts.triples (0, 1)).card = 1 := by decide
  have c2 : (sourcesOf Contracts.triples (0, 2)).card = 2 := by decide
  have c3 : (sourcesOf Contracts.triples (1, 5)).card = 1 := by decide
  have r1 : (rivals Contracts.triples (0, 1)).erase (0, 1) = {(0, 2)} := by decide
  have r2 : (rivals Contracts.triples (0, 2)).erase (0, 2) = {(0, 1)} := by decide
  have r3 : (rivals Contracts.triples (1, 5)).erase (1, 5) = ∅ := by decide
  have e1 : |(3 : ℝ) / 10 - 301 / 1000| = 1 / 1000 := by rw [abs_of_nonpos (by norm_num)]; norm_num
  have e2 : |(3 : ℝ) / 10 * (1 / 2) * -1 - 301 / 1000 * (1 / 2) * -1| = 1 / 2000 := by rw [abs_of_nonneg (by norm_num)]; norm_num
  rcases hc with rfl | rfl | rfl
  · rw [settingChange, r1, Finset.sum_singleton, c1, c2, e1]
    simp only [impVal, Contracts.contradict, Option.getD_some, Option.bind_some, e2]
    norm_num
  · rw [settingChange, r2, Finset.sum_singleton, c1, c2, e1]
    simp only [impVal, Contracts.contradict, Option.getD_some, Option.bind_some, e2]
    norm_num
  · rw [settingChange, r3, Finset.sum_empty, c3, e1]
    norm_num

/-- With a dampening factor of 0.301 instead of 0.3, no score of TruthFinder on this dataset (with contradictory values) changes by more than
0.1 after 10 iterations. -/
example (clock : Nat → Ex) : ∃ (d : Dataset Nat Nat Nat Ex) (r r' : Result Nat Nat Nat Ex),
    Dataset.mk' Contracts.triples false (finImp Contracts.contradict) = .ok d ∧
    AlgCfg.run ⟨.truthFinder (fin (1 / 2)) (fin (3 / 10)) (fin (9 / 10)), .fixed 10, none⟩ d 11 clock {} = .ok r ∧
    AlgCfg.run ⟨.truthFinder (fin (1 / 2)) (fin (301 / 1000)) (fin (9 / 10)), .fixed 10, none⟩ d 11 clock {} = .ok r' ∧
    ∀ s ∈ allSources Contracts.triples, ∃ y y' : ℝ, TrustIn r s y ∧ TrustIn r' s y' ∧ |y - y'| ≤ 1 / 10 := by
  have hd := Contracts.admissible
  obtain ⟨r, hr, hn, -⟩ := (tf_implements (l := Contracts.triples) Contracts.contradict (.fixed 10) none (1 / 2) (3 / 10) (9 / 10) (by norm_num)
    (by norm_num)).run_fixed (by simp) (by simp [Contracts.triples]) rfl (by norm_num : 10 < 11) clock {}
  obtain ⟨r', hr', hn', -⟩ := (tf_implements (l := Contracts.triples) Contracts.contradict (.fixed 10) none (1 / 2) (301 / 1000) (9 / 10) (by norm_num)
    (by norm_num)).run_fixed (by simp) (by simp [Contracts.triples]) rfl (by norm_num : 10 < 11) clock {}
  refine ⟨_, r, r', hd, hr, hr', fun s hs => ?_⟩
  have sw : ∀ c ∈ allClaims Contracts.triples,
      settingChange Contracts.triples Contracts.contradict Contracts.contradict (1 / 2) (1 / 2) (301 / 1000) (3 / 10) c ≤ 25 / 10000 := by
    intro c hc
    refine le_trans (le_of_eq ?_) (changed c hc)
    unfold settingChange
    simp only [abs_sub_comm]
  have amp : ∀ c ∈ allClaims Contracts.triples, amplification Contracts.triples Contracts.contradict (1 / 2) (301 / 1000) c ≤ 3 / 4 * (301 / 300) := by
    intro c hc
    have h := Contracts.amplified c hc
    unfold amplification at h ⊢
    linarith
  obtain ⟨y', y, h2, h1, h3⟩ := (C117_runs Contracts.triples (by simp [Contracts.triples]) false false _ _ hd hd (by norm_num) (by norm_num) amp
    (by norm_num) Contracts.amplified (by norm_num) sw (by norm_num) (by norm_num) (by norm_num) (by norm_num) hr' hr hn' hn).1 s hs
  refine ⟨y, y', h1, h2, ?_⟩
  rw [abs_sub_comm]
  refine h3.trans ?_
  have g := Contracts.gap9 (9 / 10) (by norm_num) (by norm_num)
  rw [sub_self, abs_zero, mul_zero, zero_add, div_le_iff₀ (by norm_num)]
  refine (mul_le_mul_of_nonneg_left g (by norm_num)).trans ?_
  norm_num

end Settings

end TD
