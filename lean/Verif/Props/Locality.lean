import Verif.Props.Settings
/-!
# In TruthFinder the influence of data decays with their distance (C118)

Exact arithmetic; two datasets that agree around a source (`AgreeAround`, Spec/Influence).
-/

namespace TD
open Spec Ex
attribute [-instance] instBEqProd

variable {S V X : Type} [DecidableEq S] [DecidableEq V] [DecidableEq X] {l l' : List (S × V × X)}
  {f : Option (V → X → X → Option ℝ)}

/-- The confidences in a claim of two datasets that agree about it. -/
theorem conf_local {rho gamma kappa E : ℝ} (hg : 0 ≤ gamma) (hE : 0 ≤ E) {p q : Scores S V X} {c : V × X} (hc : c ∈ allClaims l)
    (hk : amplification l f rho gamma c ≤ kappa) (hr : rivals l c = rivals l' c) (hs : ∀ d ∈ rivals l c, sourcesOf l d = sourcesOf l' d)
    (h : ∀ d ∈ rivals l c, ∀ u ∈ sourcesOf l d, |trustTau p u - trustTau q u| ≤ E) :
    |conf l f rho gamma p c - conf l' f rho gamma q c| ≤ kappa * E := by
  have self : c ∈ rivals l c := self_mem_rivals l ((mem_allClaims l).1 hc)
  have eq : conf l' f rho gamma q c = conf l f rho gamma q c := by
    unfold conf
    rw [← hr, ← hs c self]
    congr 3
    refine Finset.sum_congr rfl fun d hd => ?_
    rw [hs d (Finset.mem_of_mem_erase hd)]
  rw [eq]
  have b : ∀ d ∈ rivals l c, |(∑ s ∈ sourcesOf l d, trustTau p s) - ∑ s ∈ sourcesOf l d, trustTau q s| ≤ (sourcesOf l d).card * E := by
    intro d hd
    rw [← Finset.sum_sub_distrib]
    refine (Finset.abs_sum_le_sum_abs _ _).trans ?_
    exact (Finset.sum_le_card_nsmul _ _ E fun s hs => h d hd s hs).trans_eq (nsmul_eq_mul _ _)
  refine le_trans ?_ (mul_le_mul_of_nonneg_right hk hE)
  unfold conf amplification
  rw [← mul_sub, abs_mul, abs_of_nonneg hg, mul_assoc]
  refine mul_le_mul_of_nonneg_left ?_ hg
  rw [add_sub_add_comm, ← mul_sub, add_mul]
  refine (abs_add_le _ _).trans (add_le_add (b c self) ?_)
  rw [abs_mul, mul_assoc, Finset.sum_mul, ← Finset.sum_sub_distrib]
  refine mul_le_mul_of_nonneg_left ?_ (abs_nonneg _)
  refine (Finset.abs_sum_le_sum_abs _ _).trans (Finset.sum_le_sum fun d hd => ?_)
  rw [← mul_sub, abs_mul, mul_assoc]
  exact mul_le_mul_of_nonneg_left (b d (Finset.mem_of_mem_erase hd)) (abs_nonneg _)

/-- The belief in a claim from close confidences: one direction. -/
theorem belief_local_le {rho gamma F : ℝ} (hF : 0 ≤ F) {p q : Scores S V X} {c : V × X}
    (h : |conf l f rho gamma p c - conf l' f rho gamma q c| ≤ F) :
    (1 - (tfStep l (impVal f) rho gamma p).2 c) * Real.exp (-F) ≤ 1 - (tfStep l' (impVal f) rho gamma q).2 c ∧
    (tfStep l' (impVal f) rho gamma q).2 c ≤ (tfStep l (impVal f) rho gamma p).2 c + F := by
  have k : (1 - (tfStep l (impVal f) rho gamma p).2 c) * Real.exp (-F) ≤ 1 - (tfStep l' (impVal f) rho gamma q).2 c := by
    rw [tfStep_belief, tfStep_belief, one_sub_sig, one_sub_sig]
    exact sig_gap hF h
  refine ⟨k, ?_⟩
  have k1 : 0 < 1 - (tfStep l (impVal f) rho gamma p).2 c := by
    rw [tfStep_belief, one_sub_sig]
    positivity
  have k2 : 1 - (tfStep l (impVal f) rho gamma p).2 c ≤ 1 := by
    rw [tfStep_belief]
    have := (sigmoid_pos (-conf l f rho gamma p c)).le
    linarith
  have k3 := Real.add_one_le_exp (-F)
  nlinarith

theorem belief_local {rho gamma F : ℝ} (hF : 0 ≤ F) {p q : Scores S V X} {c : V × X}
    (h : |conf l f rho gamma p c - conf l' f rho gamma q c| ≤ F) :
    |(tfStep l (impVal f) rho gamma p).2 c - (tfStep l' (impVal f) rho gamma q).2 c| ≤ F := by
  have h1 := (belief_local_le hF h).2
  have h2 := (belief_local_le (l := l') (l' := l) (p := q) (q := p) hF (by rw [abs_sub_comm]; exact h)).2
  rw [abs_le]
  constructor <;> linarith

/-- The trust of a source from close confidences in its claims: one direction. -/
theorem trust_local_le {rho gamma F : ℝ} (hF : 0 ≤ F) {p q : Scores S V X} {s : S} (hs : s ∈ sources l) (hs' : s ∈ sources l')
    (hcl : claimsOf l s = claimsOf l' s) (h : ∀ c ∈ claimsOf l s, |conf l f rho gamma p c - conf l' f rho gamma q c| ≤ F) :
    trustTau (tfStep l' (impVal f) rho gamma q) s ≤ trustTau (tfStep l (impVal f) rho gamma p) s + F := by
  have tpos : ∀ (l : List (S × V × X)) (p : Scores S V X), s ∈ sources l → 1 - (tfStep l (impVal f) rho gamma p).1 s =
      (∑ c ∈ claimsOf l s, (1 - (tfStep l (impVal f) rho gamma p).2 c)) / (claimsOf l s).card ∧
      0 < 1 - (tfStep l (impVal f) rho gamma p).1 s := by
    intro l p hs
    have hpos : (0 : ℝ) < (claimsOf l s).card := by exact_mod_cast (claimsOf_nonempty l hs).card_pos
    have e : 1 - (tfStep l (impVal f) rho gamma p).1 s =
        (∑ c ∈ claimsOf l s, (1 - (tfStep l (impVal f) rho gamma p).2 c)) / (claimsOf l s).card := by
      rw [tfStep_trust, Finset.sum_sub_distrib, Finset.sum_const, nsmul_eq_mul, mul_one, sub_div, div_self hpos.ne']
    refine ⟨e, ?_⟩
    rw [e]
    refine div_pos (Finset.sum_pos (fun c _ => ?_) (claimsOf_nonempty l hs)) hpos
    rw [tfStep_belief, one_sub_sig]
    positivity
  have k : (1 - (tfStep l (impVal f) rho gamma p).1 s) * Real.exp (-F) ≤ 1 - (tfStep l' (impVal f) rho gamma q).1 s := by
    rw [(tpos l p hs).1, (tpos l' q hs').1, div_mul_eq_mul_div, Finset.sum_mul, ← hcl]
    exact div_le_div_of_nonneg_right (Finset.sum_le_sum fun c hc => (belief_local_le hF (h c hc)).1) (Nat.cast_nonneg _)
  have := Real.log_le_log (mul_pos (tpos l p hs).2 (Real.exp_pos _)) k
  rw [Real.log_mul (tpos l p hs).2.ne' (Real.exp_pos _).ne', Real.log_exp] at this
  unfold trustTau
  linarith

theorem trust_local {rho gamma F : ℝ} (hF : 0 ≤ F) {p q : Scores S V X} {s : S} (hs : s ∈ sources l) (hs' : s ∈ sources l')
    (hcl : claimsOf l s = claimsOf l' s) (h : ∀ c ∈ claimsOf l s, |conf l f rho gamma p c - conf l' f rho gamma q c| ≤ F) :
    |trustTau (tfStep l (impVal f) rho gamma p) s - trustTau (tfStep l' (impVal f) rho gamma q) s| ≤ F := by
  have h1 := trust_local_le hF hs hs' hcl h
  have h2 := trust_local_le (p := q) (q := p) hF hs' hs hcl.symm fun c hc => by rw [abs_sub_comm]; exact h c (hcl ▸ hc)
  rw [abs_le]
  constructor <;> linarith

/-- After `n` iterations with two datasets. -/
theorem tf_local (hl : l ≠ []) (hl' : l' ≠ []) {rho gamma kappa t : ℝ} (hg : 0 ≤ gamma)
    (hk : ∀ c ∈ allClaims l, amplification l f rho gamma c ≤ kappa) (hk' : ∀ c ∈ allClaims l', amplification l' f rho gamma c ≤ kappa)
    (hk1 : kappa < 1) (h0 : 0 ≤ t) (h1 : t < 1) (k : Nat) :
    (∀ n s, s ∈ sources l → s ∈ sources l' → AgreeAround l l' k s →
      |trustTau (tfAt l f rho gamma t n) s - trustTau (tfAt l' f rho gamma t n) s| ≤ kappa ^ k * startGap kappa t t) ∧
    (∀ n s, s ∈ sources l → s ∈ sources l' → 1 ≤ k → AgreeAround l l' k s → ∀ c ∈ claimsOf l s, 1 ≤ n →
      |(tfAt l f rho gamma t n).2 c - (tfAt l' f rho gamma t n).2 c| ≤ kappa ^ k * startGap kappa t t) := by
  have hk0 := kappa_nonneg hl hg hk
  have hM : 0 ≤ startGap kappa t t :=
    (div_nonneg (Real.log_nonneg (by norm_num)) (by linarith)).trans (le_max_right _ _)
  have bound : ∀ {l : List (S × V × X)}, l ≠ [] → (∀ c ∈ allClaims l, amplification l f rho gamma c ≤ kappa) → ∀ n, ∀ s ∈ sources l,
      0 ≤ trustTau (tfAt l f rho gamma t n) s ∧ trustTau (tfAt l f rho gamma t n) s ≤ startGap kappa t t := fun hl hk n s hs =>
    ⟨tau_nonneg (tf_inv h0 h1 n) hs, tau_bounded hg hk hk0 (startGap_grows hk1) h0 h1 ((le_max_left _ _).trans (le_max_left _ _)) n s hs⟩
  induction k with
  | zero =>
    refine ⟨fun n s hs hs' _ => ?_, fun _ _ _ _ h => absurd h (by norm_num)⟩
    obtain ⟨a1, a2⟩ := bound hl hk n s hs
    obtain ⟨b1, b2⟩ := bound hl' hk' n s hs'
    rw [pow_zero, one_mul, abs_le]
    constructor <;> linarith
  | succ k ih =>
    have confs : ∀ n s, s ∈ sources l → AgreeAround l l' (k + 1) s → ∀ c ∈ claimsOf l s,
        |conf l f rho gamma (tfAt l f rho gamma t n) c - conf l' f rho gamma (tfAt l' f rho gamma t n) c| ≤ kappa ^ (k + 1) * startGap kappa t t := by
      intro n s hs ha c hc
      obtain ⟨-, hr, hd⟩ := And.imp_right (fun h => h c hc) ha
      have hc' := (mem_allClaims l).2 (mem_claims_of_claimsOf l hc)
      have h := conf_local (f := f) (rho := rho) hg (mul_nonneg (pow_nonneg hk0 k) hM) (p := tfAt l f rho gamma t n)
        (q := tfAt l' f rho gamma t n) hc' (hk c hc') hr (fun d h => (hd d h).1) fun d h u hu =>
          ih.1 n u (mem_sources_of_sourcesOf l hu) (mem_sources_of_sourcesOf l' ((hd d h).1 ▸ hu)) ((hd d h).2 u hu)
      rwa [← mul_assoc, ← pow_succ'] at h
    have hF : 0 ≤ kappa ^ (k + 1) * startGap kappa t t := mul_nonneg (pow_nonneg hk0 _) hM
    refine ⟨fun n s hs hs' ha => ?_, fun n s hs hs' _ ha c hc hn => ?_⟩
    · cases n with
      | zero =>
        have e : ∀ l : List (S × V × X), trustTau (tfAt l f rho gamma t 0) s = -Real.log (1 - t) := fun _ => rfl
        rw [e, e, sub_self, abs_zero]
        exact hF
      | succ n =>
        rw [tf_succ, tf_succ]
        exact trust_local hF hs hs' ha.1 (confs n s hs ha)
    · obtain ⟨n, rfl⟩ : ∃ i, n = i + 1 := ⟨n - 1, by omega⟩
      rw [tf_succ, tf_succ]
      exact belief_local hF (confs n s hs ha c hc)

/-- **C118.** TruthFinder in exact arithmetic with the same settings on two datasets of amplification at most `kappa < 1`: if they agree around the
source `s` up to the distance `k`, then after the same number of iterations the trust in `s` differs between them by at most
`kappa ^ k * max (-log (1 - t)) (log 2 / (1 - kappa))`, and so do the beliefs in the claims of `s`, after at least one iteration, if `1 ≤ k`. -/
theorem C118_local (l l' : List (S × V × X)) (am am' : Bool) (d d' : Dataset S V X Ex) (hd : Dataset.mk' l am (finImp f) = .ok d)
    (hd' : Dataset.mk' l' am' (finImp f) = .ok d') {rho gamma kappa t : ℝ} (hg : 0 ≤ gamma)
    (hk : ∀ c ∈ allClaims l, amplification l f rho gamma c ≤ kappa) (hk' : ∀ c ∈ allClaims l', amplification l' f rho gamma c ≤ kappa)
    (hk1 : kappa < 1) (h0 : 0 ≤ t) (h1 : t < 1)
    {pr pr' : Option Prior} {it it' : IterCfg Ex} {fuel fuel' : Nat} {clock clock' : Nat → Ex} {st st' : IterState Ex} {r r' : Result S V X Ex}
    (hr : AlgCfg.run ⟨.truthFinder (fin rho) (fin gamma) (fin t), it, pr⟩ d fuel clock st = .ok r)
    (hr' : AlgCfg.run ⟨.truthFinder (fin rho) (fin gamma) (fin t), it', pr'⟩ d' fuel' clock' st' = .ok r')
    {n : Nat} (hn : r.iterations = some n) (hn' : r'.iterations = some n) (k : Nat) (s : S) (hs : s ∈ allSources l) (hs' : s ∈ allSources l')
    (ha : AgreeAround l l' k s) :
    (∃ y y' : ℝ, TrustIn r s y ∧ TrustIn r' s y' ∧ |y - y'| ≤ kappa ^ k * startGap kappa t t) ∧
    (1 ≤ k → 1 ≤ n → ∀ c ∈ claimsOf l s, ∃ b b' : ℝ, BeliefIn r c b ∧ BeliefIn r' c b' ∧ |b - b'| ≤ kappa ^ k * startGap kappa t t) := by
  obtain rfl := mk'_ex hd
  obtain rfl := mk'_ex hd'
  obtain ⟨a, e, rep⟩ := (tf_implements (l := l) f it pr rho gamma t h0 h1).run_reports (by simp) hr
  obtain ⟨a', e', rep'⟩ := (tf_implements (l := l') f it' pr' rho gamma t h0 h1).run_reports (by simp) hr'
  rw [e] at hn
  rw [e'] at hn'
  cases hn
  cases hn'
  have hl : l ≠ [] := by
    rintro rfl
    exact absurd hs (by simp [allSources, recorded, firstsBy])
  have hl' : l' ≠ [] := by
    rintro rfl
    exact absurd hs' (by simp [allSources, recorded, firstsBy])
  have i := (mem_allSources l).1 hs
  have i' := (mem_allSources l').1 hs'
  obtain ⟨k1, k2⟩ := tf_local (f := f) (rho := rho) hl hl' hg hk hk' hk1 h0 h1 k
  have both : ∀ m : Nat, |(tfAt l f rho gamma t m).1 s - (tfAt l' f rho gamma t m).1 s| ≤
      |trustTau (tfAt l f rho gamma t m) s - trustTau (tfAt l' f rho gamma t m) s| := by
    intro m
    have e : ∀ {l : List (S × V × X)}, s ∈ sources l → (tfAt l f rho gamma t m).1 s = 1 - Real.exp (-trustTau (tfAt l f rho gamma t m) s) := by
      intro l hs
      unfold trustTau
      rw [neg_neg, Real.exp_log (by linarith [(tf_inv (l := l) (f := f) (rho := rho) (gamma := gamma) h0 h1 m s hs).2])]
      ring
    have h := abs_exp_neg (tau_nonneg (tf_inv (l := l) (f := f) (rho := rho) (gamma := gamma) h0 h1 m) i)
      (tau_nonneg (tf_inv (l := l') (f := f) (rho := rho) (gamma := gamma) h0 h1 m) i')
    rw [e i, e i', sub_sub_sub_cancel_left, abs_sub_comm]
    exact h
  refine ⟨⟨_, _, (rep.trustIn hs).2 rfl, (rep'.trustIn hs').2 rfl, (both n).trans (k1 n s i i' ha)⟩, fun hk hn c hc => ?_⟩
  have hc1 : c ∈ allClaims l := (mem_allClaims l).2 (mem_claims_of_claimsOf l hc)
  have hcl : claimsOf l s = claimsOf l' s := by
    obtain ⟨k, rfl⟩ : ∃ i, k = i + 1 := ⟨k - 1, by omega⟩
    exact ha.1
  have hc2 : c ∈ allClaims l' := (mem_allClaims l').2 (mem_claims_of_claimsOf l' (hcl ▸ hc))
  exact ⟨_, _, (rep.beliefIn hc1).2 rfl, (rep'.beliefIn hc2).2 rfl, k2 n s i i' hk ha c hc hn⟩

namespace Local

/-- Sources that contradict each other in a row, and a dataset that differs in the claims of the fourth. -/
def chain : List (Nat × Nat × Nat) := [(0, 0, 1), (1, 0, 2), (1, 1, 1), (2, 1, 2), (2, 2, 1), (3, 2, 2), (3, 3, 1), (4, 3, 2)]

/-- See `chain`. -/
def chain' : List (Nat × Nat × Nat) := [(0, 0, 1), (1, 0, 2), (1, 1, 1), (2, 1, 2), (2, 2, 1), (3, 2, 2), (3, 7, 7)]

theorem agree : AgreeAround chain chain' 3 0 := by
  unfold AgreeAround AgreeAround AgreeAround AgreeAround
  decide +kernel

theorem ok : Dataset.mk' chain false (finImp Contracts.contradict) = .ok (datasetOf chain (finImp Contracts.contradict)) := by
  refine (mk'_ok_iff chain ex_one_ne_zero false (finImp Contracts.contradict) _).2 ⟨rfl, .inr (by simp [NoRepeats, chain]), ?_⟩
  rintro ⟨c, -, e, -, -, -, x, hx, hb⟩
  have : x = fin (-1) := by
    simp only [finImp, Contracts.contradict, Option.map_some, Option.some.injEq] at hx
    exact hx.symm
  subst this
  revert hb
  simp [badImp]

theorem ok' : Dataset.mk' chain' false (finImp Contracts.contradict) = .ok (datasetOf chain' (finImp Contracts.contradict)) := by
  refine (mk'_ok_iff chain' ex_one_ne_zero false (finImp Contracts.contradict) _).2 ⟨rfl, .inr (by simp [NoRepeats, chain']), ?_⟩
  rintro ⟨c, -, e, -, -, -, x, hx, hb⟩
  have : x = fin (-1) := by
    simp only [finImp, Contracts.contradict, Option.map_some, Option.some.injEq] at hx
    exact hx.symm
  subst this
  revert hb
  simp [badImp]

theorem amp {l : List (Nat × Nat × Nat)} (h1 : ∀ c ∈ allClaims l, (sourcesOf l c).card ≤ 1)
    (h2 : ∀ c ∈ allClaims l, ∑ d ∈ (rivals l c).erase c, (sourcesOf l d).card ≤ 1) :
    ∀ c ∈ allClaims l, amplification l Contracts.contradict (1 / 2) (3 / 10) c ≤ 9 / 20 := by
  intro c hc
  have k1 : ((sourcesOf l c).card : ℝ) ≤ 1 := by exact_mod_cast h1 c hc
  have k2 : ((∑ d ∈ (rivals l c).erase c, (sourcesOf l d).card : Nat) : ℝ) ≤ 1 := by exact_mod_cast h2 c hc
  have e : ∀ d : Nat × Nat, |impVal Contracts.contradict c.1 d.2 c.2| = 1 := by
    intro d
    simp [impVal, Contracts.contradict]
  unfold amplification
  simp only [e, one_mul]
  rw [← Nat.cast_sum, abs_of_nonneg (by norm_num : (0 : ℝ) ≤ 1 / 2)]
  linarith

theorem gap : startGap (9 / 20) (1 / 2) (1 / 2) ≤ 13 / 10 := by
  have hl := Real.log_two_lt_d9
  unfold startGap
  rw [show (1 : ℝ) - 1 / 2 = 2⁻¹ by norm_num, Real.log_inv]
  refine max_le (max_le ?_ ?_) ?_
  · linarith
  · linarith
  · rw [div_le_iff₀ (by norm_num)]
    norm_num
    linarith

/-- After any number of iterations the trust in the first source differs by at most 0.12 between the two datasets. -/
example (clock : Nat → Ex) (N : Nat) : ∃ (d d' : Dataset Nat Nat Nat Ex) (r r' : Result Nat Nat Nat Ex) (y y' : ℝ),
    Dataset.mk' chain false (finImp Contracts.contradict) = .ok d ∧ Dataset.mk' chain' false (finImp Contracts.contradict) = .ok d' ∧
    AlgCfg.run ⟨.truthFinder (fin (1 / 2)) (fin (3 / 10)) (fin (1 / 2)), .fixed N, none⟩ d (N + 1) clock {} = .ok r ∧
    AlgCfg.run ⟨.truthFinder (fin (1 / 2)) (fin (3 / 10)) (fin (1 / 2)), .fixed N, none⟩ d' (N + 1) clock {} = .ok r' ∧
    TrustIn r 0 y ∧ TrustIn r' 0 y' ∧ |y - y'| ≤ 12 / 100 := by
  obtain ⟨r, hr, hn, -⟩ := (tf_implements (l := chain) Contracts.contradict (.fixed N) none (1 / 2) (3 / 10) (1 / 2) (by norm_num)
    (by norm_num)).run_fixed (by simp) (by simp [chain]) rfl (Nat.lt_succ_self N) clock {}
  obtain ⟨r', hr', hn', -⟩ := (tf_implements (l := chain') Contracts.contradict (.fixed N) none (1 / 2) (3 / 10) (1 / 2) (by norm_num)
    (by norm_num)).run_fixed (by simp) (by simp [chain']) rfl (Nat.lt_succ_self N) clock {}
  obtain ⟨⟨y, y', h1, h2, h3⟩, -⟩ := C118_local chain chain' false false _ _ ok ok' (by norm_num) (amp (by decide) (by decide))
    (amp (by decide) (by decide)) (by norm_num) (by norm_num) (by norm_num) hr hr' hn hn' 3 0 (by decide) (by decide) agree
  refine ⟨_, _, r, r', y, y', ok, ok', hr, hr', h1, h2, h3.trans ?_⟩
  refine (mul_le_mul_of_nonneg_left gap (by norm_num)).trans ?_
  norm_num

end Local

end TD
