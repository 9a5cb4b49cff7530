import Mathlib.Analysis.Complex.ExponentialBounds
import Verif.Spec.Influence
import Verif.Lemmas.TruthFinderGap
import Verif.Lemmas.SameIterations
import Verif.Props.Settle
import Verif.Props.SameIterations
/-!
# TruthFinder with little amplification forgets its initial trust (C113)

Exact arithmetic.
-/

namespace TD
open Spec Ex Filter Topology
attribute [-instance] instBEqProd

variable {S V X : Type} [DecidableEq S] [DecidableEq V] [DecidableEq X] {l : List (S × V × X)}
  {f : Option (V → X → X → Option ℝ)}

/-- The trustworthiness scores. -/
noncomputable def trustTau (p : Scores S V X) (s : S) : ℝ := -Real.log (1 - p.1 s)

/-- The confidence scores, dampened. -/
noncomputable def conf (l : List (S × V × X)) (f : Option (V → X → X → Option ℝ)) (rho gamma : ℝ) (p : Scores S V X) (c : V × X) : ℝ :=
  gamma * ((∑ s ∈ sourcesOf l c, trustTau p s) + rho * ∑ d ∈ (rivals l c).erase c, impVal f c.1 d.2 c.2 * ∑ s ∈ sourcesOf l d, trustTau p s)

theorem tfStep_belief (rho gamma : ℝ) (p : Scores S V X) (c : V × X) :
    (tfStep l (impVal f) rho gamma p).2 c = 1 / (1 + Real.exp (-conf l f rho gamma p c)) := by
  show 1 / (1 + Real.exp (-gamma * _)) = _
  rw [conf, neg_mul]
  rfl

theorem tfStep_trust (rho gamma : ℝ) (p : Scores S V X) (s : S) :
    (tfStep l (impVal f) rho gamma p).1 s = (∑ c ∈ claimsOf l s, (tfStep l (impVal f) rho gamma p).2 c) / (claimsOf l s).card := rfl

theorem conf_diff {rho gamma kappa E : ℝ} (hg : 0 ≤ gamma) (hk : ∀ c ∈ allClaims l, amplification l f rho gamma c ≤ kappa) (hE : 0 ≤ E)
    {p q : Scores S V X} (h : ∀ s ∈ sources l, |trustTau p s - trustTau q s| ≤ E) {c : V × X} (hc : c ∈ allClaims l) :
    |conf l f rho gamma p c - conf l f rho gamma q c| ≤ kappa * E := by
  have hs : ∀ d : V × X, |(∑ s ∈ sourcesOf l d, trustTau p s) - ∑ s ∈ sourcesOf l d, trustTau q s| ≤ (sourcesOf l d).card * E := by
    intro d
    rw [← Finset.sum_sub_distrib]
    refine (Finset.abs_sum_le_sum_abs _ _).trans ?_
    refine (Finset.sum_le_card_nsmul _ _ E fun s hs => h s (mem_sources_of_sourcesOf l hs)).trans_eq (nsmul_eq_mul _ _)
  refine le_trans ?_ (mul_le_mul_of_nonneg_right (hk c hc) hE)
  unfold conf amplification
  rw [← mul_sub, abs_mul, abs_of_nonneg hg, mul_assoc]
  refine mul_le_mul_of_nonneg_left ?_ hg
  rw [add_sub_add_comm, ← mul_sub, add_mul]
  refine (abs_add_le _ _).trans (add_le_add (hs c) ?_)
  rw [abs_mul, mul_assoc, Finset.sum_mul, ← Finset.sum_sub_distrib]
  refine mul_le_mul_of_nonneg_left ?_ (abs_nonneg _)
  refine (Finset.abs_sum_le_sum_abs _ _).trans (Finset.sum_le_sum fun d _ => ?_)
  rw [← mul_sub, abs_mul, mul_assoc]
  exact mul_le_mul_of_nonneg_left (hs d) (abs_nonneg _)

theorem abs_exp_neg {x y : ℝ} (hx : 0 ≤ x) (hy : 0 ≤ y) : |Real.exp (-x) - Real.exp (-y)| ≤ |x - y| := by
  wlog h : x ≤ y generalizing x y
  · rw [abs_sub_comm, abs_sub_comm x]
    exact this hy hx (le_of_not_ge h)
  have h1 := Real.add_one_le_exp (x - y)
  have e : Real.exp (-y) = Real.exp (-x) * Real.exp (x - y) := by rw [← Real.exp_add]; congr 1; ring
  have h2 : Real.exp (-x) ≤ 1 := Real.exp_le_one_iff.2 (by linarith)
  have h3 : Real.exp (x - y) ≤ 1 := Real.exp_le_one_iff.2 (by linarith)
  have h4 := Real.exp_pos (-x)
  rw [abs_of_nonneg (by rw [e]; nlinarith), abs_of_nonpos (by linarith), e]
  nlinarith

/-- One iteration from two sets of scores. -/
theorem tf_contract {rho gamma kappa E : ℝ} (hg : 0 ≤ gamma) (hk : ∀ c ∈ allClaims l, amplification l f rho gamma c ≤ kappa)
    (hk0 : 0 ≤ kappa) (hE : 0 ≤ E) {p q : Scores S V X} (h : ∀ s ∈ sources l, |trustTau p s - trustTau q s| ≤ E) :
    (∀ s ∈ sources l, |trustTau (tfStep l (impVal f) rho gamma p) s - trustTau (tfStep l (impVal f) rho gamma q) s| ≤ kappa * E) ∧
    ∀ c ∈ allClaims l, |(tfStep l (impVal f) rho gamma p).2 c - (tfStep l (impVal f) rho gamma q).2 c| ≤ kappa * E := by
  have hF : 0 ≤ kappa * E := mul_nonneg hk0 hE
  have gap : ∀ {p q : Scores S V X}, (∀ s ∈ sources l, |trustTau p s - trustTau q s| ≤ E) → ∀ c ∈ allClaims l,
      (1 - (tfStep l (impVal f) rho gamma p).2 c) * Real.exp (-(kappa * E)) ≤ 1 - (tfStep l (impVal f) rho gamma q).2 c := by
    intro p q h c hc
    rw [tfStep_belief, tfStep_belief, one_sub_sig, one_sub_sig]
    exact sig_gap hF (conf_diff hg hk hE h hc)
  have h' : ∀ s ∈ sources l, |trustTau q s - trustTau p s| ≤ E := fun s hs => by rw [abs_sub_comm]; exact h s hs
  have pos : ∀ (p : Scores S V X) c, 0 < 1 - (tfStep l (impVal f) rho gamma p).2 c := by
    intro p c
    rw [tfStep_belief, one_sub_sig]
    positivity
  have tpos : ∀ (p : Scores S V X), ∀ s ∈ sources l, 1 - (tfStep l (impVal f) rho gamma p).1 s =
      (∑ c ∈ claimsOf l s, (1 - (tfStep l (impVal f) rho gamma p).2 c)) / (claimsOf l s).card ∧
      0 < 1 - (tfStep l (impVal f) rho gamma p).1 s := by
    intro p s hs
    have hpos : (0 : ℝ) < (claimsOf l s).card := by exact_mod_cast (claimsOf_nonempty l hs).card_pos
    have e : 1 - (tfStep l (impVal f) rho gamma p).1 s =
        (∑ c ∈ claimsOf l s, (1 - (tfStep l (impVal f) rho gamma p).2 c)) / (claimsOf l s).card := by
      rw [tfStep_trust, Finset.sum_sub_distrib, Finset.sum_const, nsmul_eq_mul, mul_one, sub_div, div_self hpos.ne']
    refine ⟨e, ?_⟩
    rw [e]
    exact div_pos (Finset.sum_pos (fun c _ => pos p c) (claimsOf_nonempty l hs)) hpos
  have tgap : ∀ {p q : Scores S V X}, (∀ s ∈ sources l, |trustTau p s - trustTau q s| ≤ E) → ∀ s ∈ sources l,
      trustTau (tfStep l (impVal f) rho gamma q) s ≤ trustTau (tfStep l (impVal f) rho gamma p) s + kappa * E := by
    intro p q h s hs
    have k : (1 - (tfStep l (impVal f) rho gamma p).1 s) * Real.exp (-(kappa * E)) ≤ 1 - (tfStep l (impVal f) rho gamma q).1 s := by
      rw [(tpos p s hs).1, (tpos q s hs).1, div_mul_eq_mul_div, Finset.sum_mul]
      exact div_le_div_of_nonneg_right (Finset.sum_le_sum fun c hc => gap h c ((mem_allClaims l).2 (mem_claims_of_claimsOf l hc)))
        (Nat.cast_nonneg _)
    have := Real.log_le_log (mul_pos (tpos p s hs).2 (Real.exp_pos _)) k
    rw [Real.log_mul (tpos p s hs).2.ne' (Real.exp_pos _).ne', Real.log_exp] at this
    unfold trustTau
    linarith
  constructor
  · intro s hs
    rw [abs_le]
    constructor
    · linarith [tgap h s hs]
    · linarith [tgap h' s hs]
  · intro c hc
    have one : ∀ {p q : Scores S V X}, (∀ s ∈ sources l, |trustTau p s - trustTau q s| ≤ E) →
        (tfStep l (impVal f) rho gamma q).2 c ≤ (tfStep l (impVal f) rho gamma p).2 c + kappa * E := by
      intro p q h
      have k := gap h c hc
      have k1 := pos p c
      have k2 : 1 - (tfStep l (impVal f) rho gamma p).2 c ≤ 1 := by
        rw [tfStep_belief]
        have := (sigmoid_pos (-conf l f rho gamma p c)).le
        linarith
      have k3 := Real.add_one_le_exp (-(kappa * E))
      nlinarith
    rw [abs_le]
    constructor
    · linarith [one h]
    · linarith [one h']

/-- Scores without any trust. -/
theorem tau_half (rho gamma : ℝ) {s : S} (hs : s ∈ sources l) :
    trustTau (tfStep l (impVal f) rho gamma ((fun _ => 0), fun _ => 0)) s = Real.log 2 := by
  have hb : ∀ c, (tfStep l (impVal f) rho gamma ((fun _ => 0), fun _ => 0)).2 c = 1 / 2 := by
    intro c
    rw [tfStep_belief]
    have : conf l f rho gamma ((fun _ => 0), fun _ => 0) c = 0 := by simp [conf, trustTau]
    rw [this]
    norm_num
  have hpos : (0 : ℝ) < (claimsOf l s).card := by exact_mod_cast (claimsOf_nonempty l hs).card_pos
  have : (tfStep l (impVal f) rho gamma ((fun _ => 0), fun _ => 0)).1 s = 1 / 2 := by
    rw [tfStep_trust, Finset.sum_congr rfl fun c _ => hb c, Finset.sum_const, nsmul_eq_mul, mul_comm, mul_div_assoc, div_self hpos.ne', mul_one]
  unfold trustTau
  rw [this, show (1 : ℝ) - 1 / 2 = 2⁻¹ by norm_num, Real.log_inv, neg_neg]

theorem tau_nonneg {p : Scores S V X} (hp : TfInv l p) {s : S} (hs : s ∈ sources l) : 0 ≤ trustTau p s := by
  obtain ⟨h0, h1⟩ := hp s hs
  have := Real.log_nonpos (x := 1 - p.1 s) (by linarith) (by linarith)
  unfold trustTau
  linarith

/-- The trustworthiness scores stay bounded. -/
theorem tau_bounded {rho gamma kappa M : ℝ} (hg : 0 ≤ gamma) (hk : ∀ c ∈ allClaims l, amplification l f rho gamma c ≤ kappa)
    (hk0 : 0 ≤ kappa) (hM : Real.log 2 + kappa * M ≤ M) {t0 : ℝ} (h0 : 0 ≤ t0) (h1 : t0 < 1) (hM0 : -Real.log (1 - t0) ≤ M) (n : Nat) :
    ∀ s ∈ sources l, trustTau (tfAt l f rho gamma t0 n) s ≤ M := by
  have hlog : 0 ≤ -Real.log (1 - t0) := by
    have := Real.log_nonpos (x := 1 - t0) (by linarith) (by linarith); linarith
  induction n with
  | zero => exact fun s _ => hM0
  | succ n ih =>
    intro s hs
    have h := (tf_contract (f := f) (rho := rho) hg hk hk0 (by linarith : 0 ≤ M) (p := tfAt l f rho gamma t0 n) (q := ((fun _ => 0), fun _ => 0))
      (fun s hs => by
        have e : trustTau (S := S) (V := V) (X := X) ((fun _ => 0), fun _ => 0) s = 0 := by simp [trustTau]
        rw [e, sub_zero, abs_of_nonneg (tau_nonneg (tf_inv h0 h1 n) hs)]
        exact ih s hs)).1 s hs
    rw [tau_half rho gamma hs] at h
    rw [tf_succ]
    linarith [(abs_le.1 h).2]

theorem startGap_grows {kappa t t' : ℝ} (hk1 : kappa < 1) : Real.log 2 + kappa * startGap kappa t t' ≤ startGap kappa t t' := by
  have h : Real.log 2 / (1 - kappa) ≤ startGap kappa t t' := le_max_right _ _
  rw [div_le_iff₀ (by linarith)] at h
  linarith

theorem trust_tau {p q : Scores S V X} (hp : TfInv l p) (hq : TfInv l q) {s : S} (hs : s ∈ sources l) : |p.1 s - q.1 s| ≤ |trustTau p s - trustTau q s| := by
  have e : ∀ {p : Scores S V X}, TfInv l p → p.1 s = 1 - Real.exp (-trustTau p s) := by
    intro p hp
    unfold trustTau
    rw [neg_neg, Real.exp_log (by linarith [(hp s hs).2])]
    ring
  have h := abs_exp_neg (tau_nonneg hp hs) (tau_nonneg hq hs)
  rw [e hp, e hq, show 1 - Real.exp (-trustTau p s) - (1 - Real.exp (-trustTau q s)) = -(Real.exp (-trustTau p s) - Real.exp (-trustTau q s)) by ring, abs_neg]
  exact h

/-- After `n` iterations, and after at least as many from another initial trust. -/
theorem tf_forgets {rho gamma kappa : ℝ} (hg : 0 ≤ gamma) (hk : ∀ c ∈ allClaims l, amplification l f rho gamma c ≤ kappa)
    (hk0 : 0 ≤ kappa) (hk1 : kappa < 1) {t t' : ℝ} (h0 : 0 ≤ t) (h1 : t < 1) (h0' : 0 ≤ t') (h1' : t' < 1) (k n : Nat) :
    (∀ s ∈ sources l, |trustTau (tfAt l f rho gamma t n) s - trustTau (tfAt l f rho gamma t' (n + k)) s| ≤ kappa ^ n * startGap kappa t t') ∧
    (1 ≤ n → ∀ c ∈ allClaims l, |(tfAt l f rho gamma t n).2 c - (tfAt l f rho gamma t' (n + k)).2 c| ≤ kappa ^ n * startGap kappa t t') := by
  have hM : 0 ≤ startGap kappa t t' :=
    (div_nonneg (Real.log_nonneg (by norm_num)) (by linarith)).trans (le_max_right _ _)
  induction n with
  | zero =>
    refine ⟨fun s hs => ?_, fun h => absurd h (by norm_num)⟩
    rw [pow_zero, one_mul]
    have b1 := tau_bounded (f := f) (rho := rho) (M := startGap kappa t t') hg hk hk0 (startGap_grows hk1) h0 h1 ((le_max_left _ _).trans (le_max_left _ _)) 0 s hs
    have b2 := tau_bounded (f := f) (rho := rho) (M := startGap kappa t t') hg hk hk0 (startGap_grows hk1) h0' h1' ((le_max_right _ _).trans (le_max_left _ _)) (0 + k) s hs
    have b3 := tau_nonneg (tf_inv (l := l) (f := f) (rho := rho) (gamma := gamma) h0 h1 0) hs
    have b4 := tau_nonneg (tf_inv (l := l) (f := f) (rho := rho) (gamma := gamma) h0' h1' (0 + k)) hs
    rw [abs_le]
    constructor <;> linarith
  | succ n ih =>
    have := tf_contract (f := f) (rho := rho) hg hk hk0 (by positivity) ih.1
    rw [← tf_succ, ← tf_succ, ← mul_assoc, ← pow_succ'] at this
    rw [show n + 1 + k = n + k + 1 by ring]
    exact ⟨this.1, fun _ => this.2⟩

/-- **C113.** TruthFinder, in exact arithmetic and with any implications, on a dataset with amplification at most `kappa < 1` for every
claim. Run it twice, with initial trusts `t` and `t'`, any iterators, and let the first run have done `n` iterations and the second
at least as many: then every trust score of the first differs from that of the second by at most
`kappa ^ n * max (-log (1 - t)) (-log (1 - t')) (log 2 / (1 - kappa))`, and so does every belief if `1 ≤ n`. -/
theorem C113_forgets (l : List (S × V × X)) (am : Bool) (d : Dataset S V X Ex) (hd : Dataset.mk' l am (finImp f) = .ok d)
    {rho gamma kappa t t' : ℝ} (hg : 0 ≤ gamma) (hk : ∀ c ∈ allClaims l, amplification l f rho gamma c ≤ kappa) (hk1 : kappa < 1)
    (h0 : 0 ≤ t) (h1 : t < 1) (h0' : 0 ≤ t') (h1' : t' < 1) {pr pr' : Option Prior}
    {it it' : IterCfg Ex} {fuel fuel' : Nat} {clock clock' : Nat → Ex} {st st' : IterState Ex} {r r' : Result S V X Ex}
    (hr : AlgCfg.run ⟨.truthFinder (fin rho) (fin gamma) (fin t), it, pr⟩ d fuel clock st = .ok r)
    (hr' : AlgCfg.run ⟨.truthFinder (fin rho) (fin gamma) (fin t'), it', pr'⟩ d fuel' clock' st' = .ok r')
    {n n' : Nat} (hn : r.iterations = some n) (hn' : r'.iterations = some n') (hle : n ≤ n') :
    (∀ s ∈ allSources l, ∃ y y' : ℝ, TrustIn r s y ∧ TrustIn r' s y' ∧ |y - y'| ≤ kappa ^ n * startGap kappa t t') ∧
    (1 ≤ n → ∀ c ∈ allClaims l, ∃ b b' : ℝ, BeliefIn r c b ∧ BeliefIn r' c b' ∧ |b - b'| ≤ kappa ^ n * startGap kappa t t') := by
  obtain rfl := mk'_ex hd
  obtain ⟨a, e, rep⟩ := (tf_implements (l := l) f it pr rho gamma t h0 h1).run_reports (by simp) hr
  obtain ⟨a', e', rep'⟩ := (tf_implements (l := l) f it' pr' rho gamma t' h0' h1').run_reports (by simp) hr'
  rw [e] at hn
  rw [e'] at hn'
  cases hn
  cases hn'
  obtain ⟨k, rfl⟩ := Nat.exists_eq_add_of_le hle
  by_cases hne : (allClaims l).Nonempty
  · have hk0 : 0 ≤ kappa := by
      obtain ⟨c, hc⟩ := hne
      refine le_trans ?_ (hk c hc)
      unfold amplification
      positivity
    obtain ⟨k1, k2⟩ := tf_forgets (f := f) (rho := rho) hg hk hk0 hk1 h0 h1 h0' h1' k n
    refine ⟨fun s hs => ⟨_, _, (rep.trustIn hs).2 rfl, (rep'.trustIn hs).2 rfl, ?_⟩, fun h c hc =>
      ⟨_, _, (rep.beliefIn hc).2 rfl, (rep'.beliefIn hc).2 rfl, k2 h c hc⟩⟩
    have hs' := (mem_allSources l).1 hs
    exact (trust_tau (tf_inv h0 h1 n) (tf_inv h0' h1' (n + k)) hs').trans (k1 s hs')
  · refine ⟨fun s hs => ?_, fun _ c hc => absurd ⟨c, hc⟩ hne⟩
    obtain ⟨c, hc⟩ := claimsOf_nonempty l ((mem_allSources l).1 hs)
    exact absurd ⟨c, (mem_allClaims l).2 (mem_claims_of_claimsOf l hc)⟩ hne

theorem kappa_nonneg {rho gamma kappa : ℝ} (hl : l ≠ []) (hg : 0 ≤ gamma) (hk : ∀ c ∈ allClaims l, amplification l f rho gamma c ≤ kappa) :
    0 ≤ kappa := by
  obtain ⟨c, hc⟩ := allClaims_nonempty hl
  refine le_trans ?_ (hk c hc)
  unfold amplification
  positivity

/-- **C113.** Hence there is one set of scores to which TruthFinder converges whatever the initial trust: after `n` iterations no trust score
differs from it by more than `kappa ^ n * max (-log (1 - t)) (log 2 / (1 - kappa))`, and no belief if `1 ≤ n`. It is also the only set of
scores with trust in [0, 1) that the update of TruthFinder leaves as they are. -/
theorem C113_converges (l : List (S × V × X)) (hl : l ≠ []) (am : Bool) (d : Dataset S V X Ex) (hd : Dataset.mk' l am (finImp f) = .ok d)
    {rho gamma kappa : ℝ} (hg : 0 ≤ gamma) (hk : ∀ c ∈ allClaims l, amplification l f rho gamma c ≤ kappa) (hk1 : kappa < 1) :
    ∃ q : Scores S V X, (∀ s ∈ allSources l, 0 ≤ q.1 s ∧ q.1 s < 1) ∧ (∀ c ∈ allClaims l, 0 < q.2 c ∧ q.2 c < 1) ∧ Balanced l f rho gamma q ∧
      (∀ p : Scores S V X, (∀ s ∈ allSources l, 0 ≤ p.1 s ∧ p.1 s < 1) → Balanced l f rho gamma p →
        (∀ s ∈ allSources l, p.1 s = q.1 s) ∧ ∀ c ∈ allClaims l, p.2 c = q.2 c) ∧
      ∀ (t : ℝ) (_ : 0 ≤ t) (_ : t < 1) (pr : Option Prior) (it : IterCfg Ex) (fuel : Nat) (clock : Nat → Ex) (st : IterState Ex)
        (r : Result S V X Ex) (n : Nat),
        AlgCfg.run ⟨.truthFinder (fin rho) (fin gamma) (fin t), it, pr⟩ d fuel clock st = .ok r → r.iterations = some n →
        (∀ s ∈ allSources l, ∃ y : ℝ, TrustIn r s y ∧ |y - q.1 s| ≤ kappa ^ n * startGap kappa t t) ∧
        (1 ≤ n → ∀ c ∈ allClaims l, ∃ b : ℝ, BeliefIn r c b ∧ |b - q.2 c| ≤ kappa ^ n * startGap kappa t t) := by
  obtain rfl := mk'_ex hd
  have hk0 := kappa_nonneg hl hg hk
  have hs0 : ∀ t : ℝ, 0 ≤ t → t < 1 → startGap kappa t 0 = startGap kappa t t := by
    intro t h0 h1
    have h2 := Real.log_nonpos (x := 1 - t) (by linarith) (by linarith)
    unfold startGap
    rw [sub_zero, Real.log_one, neg_zero, max_self, max_eq_left (by linarith : (0 : ℝ) ≤ -Real.log (1 - t))]
  have key : ∀ (t : ℝ), 0 ≤ t → t < 1 → ∀ n k,
      (∀ s ∈ sources l, |(tfAt l f rho gamma t n).1 s - (tfAt l f rho gamma 0 (n + k)).1 s| ≤ kappa ^ n * startGap kappa t t) ∧
      (1 ≤ n → ∀ c ∈ allClaims l, |(tfAt l f rho gamma t n).2 c - (tfAt l f rho gamma 0 (n + k)).2 c| ≤ kappa ^ n * startGap kappa t t) := by
    intro t h0 h1 n k
    obtain ⟨k1, k2⟩ := tf_forgets (f := f) (rho := rho) hg hk hk0 hk1 h0 h1 le_rfl one_pos k n
    rw [hs0 t h0 h1] at k1 k2
    exact ⟨fun s hs => (trust_tau (tf_inv h0 h1 n) (tf_inv le_rfl one_pos (n + k)) hs).trans (k1 s hs), k2⟩
  have lim0 : Tendsto (fun n => kappa ^ n * startGap kappa 0 0) atTop (𝓝 0) := by
    simpa using (tendsto_pow_atTop_nhds_zero_of_lt_one hk0 hk1).mul_const (startGap kappa 0 0)
  have cau : ∀ u : Nat → ℝ, (∀ n k, 1 ≤ n → |u n - u (n + k)| ≤ kappa ^ n * startGap kappa 0 0) → ∃ z, Tendsto u atTop (𝓝 z) := by
    intro u hu
    refine cauchySeq_tendsto_of_complete (Metric.cauchySeq_iff'.2 fun ε hε => ?_)
    obtain ⟨N, hN⟩ := Metric.tendsto_atTop.1 lim0 ε hε
    refine ⟨N + 1, fun n hn => ?_⟩
    obtain ⟨k, rfl⟩ := Nat.exists_eq_add_of_le hn
    have h1 := hu (N + 1) k (by omega)
    have h2 := hN (N + 1) (by omega)
    rw [Real.dist_eq, sub_zero] at h2
    rw [dist_comm, Real.dist_eq]
    exact h1.trans_lt ((le_abs_self _).trans_lt h2)
  have exT : ∀ s ∈ sources l, ∃ z, Tendsto (fun n => (tfAt l f rho gamma 0 n).1 s) atTop (𝓝 z) := fun s hs =>
    cau _ fun n k _ => (key 0 le_rfl one_pos n k).1 s hs
  have exB : ∀ c ∈ allClaims l, ∃ z, Tendsto (fun n => (tfAt l f rho gamma 0 n).2 c) atTop (𝓝 z) := fun c hc =>
    cau _ fun n k h => (key 0 le_rfl one_pos n k).2 h c hc
  choose! qt hqt using exT
  choose! qb hqb using exB
  have pass : ∀ {u : Nat → ℝ} {z x B : ℝ} {n : Nat}, Tendsto u atTop (𝓝 z) → (∀ k, |x - u (n + k)| ≤ B) → |x - z| ≤ B := by
    intro u z x B n hu h
    have h1 : Tendsto (fun k => |x - u (n + k)|) atTop (𝓝 |x - z|) :=
      ((tendsto_const_nhds (x := x)).sub ((tendsto_add_atTop_iff_nat n).2 hu |>.congr fun k => by rw [add_comm])).abs
    exact le_of_tendsto' h1 h
  have qlt : ∀ s ∈ sources l, 0 ≤ qt s ∧ qt s < 1 := by
    intro s hs
    refine ⟨ge_of_tendsto' (hqt s hs) fun n => (tf_inv le_rfl one_pos n s hs).1, ?_⟩
    have hb : qt s ≤ 1 - Real.exp (-startGap kappa 0 0) := le_of_tendsto' (hqt s hs) fun n => by
      have h1 := tau_bounded (f := f) (rho := rho) (M := startGap kappa 0 0) hg hk hk0 (startGap_grows hk1) le_rfl one_pos
        ((le_max_left _ _).trans (le_max_left _ _)) n s hs
      have h2 := (tf_inv (l := l) (f := f) (rho := rho) (gamma := gamma) le_rfl one_pos n s hs).2
      have h3 := Real.exp_le_exp.2 (neg_le_neg h1)
      rw [trustTau, neg_neg, Real.exp_log (by linarith)] at h3
      linarith
    linarith [Real.exp_pos (-startGap kappa 0 0)]
  have tauLim : ∀ s ∈ sources l, Tendsto (fun n => trustTau (tfAt l f rho gamma 0 n) s) atTop (𝓝 (trustTau (qt, qb) s)) := by
    intro s hs
    have hne : (1 : ℝ) - qt s ≠ 0 := by linarith [(qlt s hs).2]
    exact (((tendsto_const_nhds (x := (1 : ℝ))).sub (hqt s hs)).log hne).neg
  have hM0 : 0 ≤ startGap kappa 0 0 :=
    (div_nonneg (Real.log_nonneg (by norm_num)) (by linarith)).trans (le_max_right _ _)
  have gapLim : ∀ n, ∀ s ∈ sources l, |trustTau (tfAt l f rho gamma 0 n) s - trustTau (qt, qb) s| ≤ kappa ^ n * startGap kappa 0 0 :=
    fun n s hs => pass (tauLim s hs) fun k => (tf_forgets (f := f) (rho := rho) hg hk hk0 hk1 le_rfl one_pos le_rfl one_pos k n).1 s hs
  have belLim : ∀ c ∈ allClaims l, (tfStep l (impVal f) rho gamma (qt, qb)).2 c = qb c := by
    intro c hc
    refine tendsto_nhds_unique (f := fun n => (tfAt l f rho gamma 0 (n + 1)).2 c) ?_ ((tendsto_add_atTop_iff_nat 1).2 (hqb c hc))
    refine tendsto_iff_dist_tendsto_zero.2 (squeeze_zero (fun _ => dist_nonneg) (fun n => ?_) (by simpa using lim0.const_mul kappa))
    rw [Real.dist_eq]
    have h := (tf_contract (f := f) (rho := rho) hg hk hk0 (mul_nonneg (pow_nonneg hk0 n) hM0) (gapLim n)).2 c hc
    rwa [← tf_succ] at h
  have bal : Balanced l f rho gamma (qt, qb) := by
    refine ⟨fun s hs => ?_, belLim⟩
    have hs' := (mem_allSources l).1 hs
    refine tendsto_nhds_unique (f := fun n => (tfAt l f rho gamma 0 (n + 1)).1 s) ?_ ((tendsto_add_atTop_iff_nat 1).2 (hqt s hs'))
    have hcl : ∀ c ∈ claimsOf l s, c ∈ allClaims l := fun c hc => (mem_allClaims l).2 (mem_claims_of_claimsOf l hc)
    rw [tfStep_trust, Finset.sum_congr rfl fun c hc => belLim c (hcl c hc)]
    have h := (tendsto_finsetSum (claimsOf l s) fun c hc => (tendsto_add_atTop_iff_nat 1).2 (hqb c (hcl c hc))).div_const ((claimsOf l s).card : ℝ)
    refine h.congr fun n => ?_
    rw [tf_succ, tfStep_trust]
  refine ⟨(qt, qb), fun s hs => qlt s ((mem_allSources l).1 hs), fun c hc => ?_, bal, ?_, ?_⟩
  · rw [← bal.2 c hc]
    exact ⟨sigmoid_pos _, sigmoid_lt _⟩
  · intro p hp hb
    have hp' : TfInv l p := fun s hs => hp s ((mem_allSources l).2 hs)
    have eqT : ∀ {p : Scores S V X}, Balanced l f rho gamma p → ∀ s ∈ sources l,
        trustTau (tfStep l (impVal f) rho gamma p) s = trustTau p s := by
      intro p hb s hs
      unfold trustTau
      rw [hb.1 s ((mem_allSources l).2 hs)]
    have hE0 : 0 ≤ ∑ s ∈ allSources l, |trustTau p s - trustTau (qt, qb) s| := Finset.sum_nonneg fun _ _ => abs_nonneg _
    have it : ∀ n, ∀ s ∈ sources l, |trustTau p s - trustTau (qt, qb) s| ≤ kappa ^ n * ∑ s ∈ allSources l, |trustTau p s - trustTau (qt, qb) s| := by
      intro n
      induction n with
      | zero =>
        intro s hs
        rw [pow_zero, one_mul]
        exact Finset.single_le_sum (f := fun s => |trustTau p s - trustTau (qt, qb) s|) (fun _ _ => abs_nonneg _) ((mem_allSources l).2 hs)
      | succ n ih =>
        intro s hs
        have h := (tf_contract (f := f) (rho := rho) hg hk hk0 (mul_nonneg (pow_nonneg hk0 n) hE0) ih).1 s hs
        rwa [eqT hb s hs, eqT bal s hs, ← mul_assoc, ← pow_succ'] at h
    have zero : ∀ s ∈ sources l, |trustTau p s - trustTau (qt, qb) s| ≤ 0 := fun s hs =>
      ge_of_tendsto' (by simpa using (tendsto_pow_atTop_nhds_zero_of_lt_one hk0 hk1).mul_const _) fun n => it n s hs
    refine ⟨fun s hs => ?_, fun c hc => ?_⟩
    · have hs' := (mem_allSources l).1 hs
      exact sub_eq_zero.1 (abs_nonpos_iff.1 ((trust_tau hp' (q := (qt, qb)) qlt hs').trans (zero s hs')))
    · have h := (tf_contract (f := f) (rho := rho) hg hk hk0 le_rfl zero).2 c hc
      rw [mul_zero, hb.2 c hc, bal.2 c hc] at h
      exact sub_eq_zero.1 (abs_nonpos_iff.1 h)
  · intro t h0 h1 pr it fuel clock st r n hr hn
    obtain ⟨a, e, rep⟩ := (tf_implements (l := l) f it pr rho gamma t h0 h1).run_reports (by simp) hr
    rw [e] at hn
    cases hn
    refine ⟨fun s hs => ⟨_, (rep.trustIn hs).2 rfl, ?_⟩, fun h c hc => ⟨_, (rep.beliefIn hc).2 rfl, ?_⟩⟩
    · have hs' := (mem_allSources l).1 hs
      exact pass (hqt s hs') fun k => (key t h0 h1 n k).1 s hs'
    · exact pass (hqb c hc) fun k => (key t h0 h1 n k).2 h c hc

/-- How far apart vectors of scores are. -/
theorem distance_change {F : Finset S} (hF : F.Nonempty) {m : Measure} (hm : m ≠ .cosine) {v w : S → ℝ} {e : ℝ}
    (h : ∀ s ∈ F, |v s - w s| ≤ e) : distance m F v w ≤ F.card * e := by
  have h1 := distance_lip F hF m hm v w w w
  have h0 : distance m F w w = 0 := by
    cases m with
    | l1 => simp [distance]
    | l2 => simp [distance, len2]
    | lInf =>
      simp only [distance, sub_self, abs_zero]
      obtain ⟨i, hi, h⟩ := top_mem (F := F) (f := fun _ => (0 : ℝ)) hF
      exact h.symm
    | cosine => exact absurd rfl hm
  rw [h0, zero_add] at h1
  refine h1.trans ((Finset.sum_le_card_nsmul _ _ e fun s hs => ?_).trans_eq (nsmul_eq_mul _ _))
  rw [sub_self, abs_zero, add_zero]
  exact h s hs

/-- The change in an iteration. -/
theorem tf_change {rho gamma kappa : ℝ} (hl : l ≠ []) (hg : 0 ≤ gamma) (hk : ∀ c ∈ allClaims l, amplification l f rho gamma c ≤ kappa)
    (hk1 : kappa < 1) {t : ℝ} (h0 : 0 ≤ t) (h1 : t < 1) {m : Measure} (hm : m ≠ .cosine) (n : Nat) :
    distance m (allSources l) (tfAt l f rho gamma t n).1 (tfAt l f rho gamma t (n + 1)).1 ≤
      (allSources l).card * (kappa ^ n * startGap kappa t t) := by
  refine distance_change (allSources_nonempty hl) hm fun s hs => ?_
  have hs' := (mem_allSources l).1 hs
  exact (trust_tau (tf_inv h0 h1 n) (tf_inv h0 h1 (n + 1)) hs').trans
    ((tf_forgets (f := f) (rho := rho) hg hk (kappa_nonneg hl hg hk) hk1 h0 h1 h0 h1 1 n).1 s hs')

/-- **C113.** With a `ConvergenceIterator` (measure L1, L2 or L_INF) of threshold `th` the run succeeds within `N + 1` iterations, where `N` is any number with
`|S| * kappa ^ N * max (-log (1 - t)) (log 2 / (1 - kappa)) < th`, if its limit allows that many. -/
theorem C113_settles (l : List (S × V × X)) (hl : l ≠ []) (am : Bool) (d : Dataset S V X Ex) (hd : Dataset.mk' l am (finImp f) = .ok d)
    {rho gamma kappa t th : ℝ} (hg : 0 ≤ gamma) (hk : ∀ c ∈ allClaims l, amplification l f rho gamma c ≤ kappa) (hk1 : kappa < 1)
    (h0 : 0 ≤ t) (h1 : t < 1) (m : Measure) (hm : m ≠ .cosine) (pr : Option Prior) (N : Nat)
    (hN : (allSources l).card * (kappa ^ N * startGap kappa t t) < th)
    (limit : Int) (fuel : Nat) (clock : Nat → Ex) (st : IterState Ex) (hlim : ((N + 1 : Nat) : Int) ≤ limit) (hfuel : N + 1 < fuel) :
    ∃ r, (⟨.truthFinder (fin rho) (fin gamma) (fin t), .conv (some m) (fin th) limit, pr⟩ : AlgCfg Ex).run d fuel clock st = .ok r ∧
      ∃ n, r.iterations = some n ∧ n ≤ N + 1 := by
  obtain rfl := mk'_ex hd
  refine run_succeeds_of_lt (by simp) hl (fun limit => tf_implements f (.conv (some m) (fin th) limit) pr rho gamma t h0 h1) (N := N)
    ?_ limit fuel clock st hlim hfuel
  have h := tf_change (f := f) (rho := rho) hl hg hk hk1 h0 h1 hm N
  rw [distance_swap, tf_succ] at h
  exact h.trans_lt hN

/-- Trust is not small. -/
theorem tf_low {rho gamma kappa : ℝ} (hl : l ≠ []) (hg : 0 ≤ gamma) (hk : ∀ c ∈ allClaims l, amplification l f rho gamma c ≤ kappa)
    (hk1 : kappa < 1) {t : ℝ} (h0 : 0 ≤ t) (h1 : t < 1) (n : Nat) :
    ∀ s ∈ sources l, 1 / (1 + Real.exp (kappa * startGap kappa t t)) ≤ (tfAt l f rho gamma t (n + 1)).1 s := by
  intro s hs
  have hpos : (0 : ℝ) < (claimsOf l s).card := by exact_mod_cast (claimsOf_nonempty l hs).card_pos
  have hM : 0 ≤ startGap kappa t t :=
    (div_nonneg (Real.log_nonneg (by norm_num)) (by linarith)).trans (le_max_right _ _)
  rw [tf_succ, tfStep_trust, le_div_iff₀ hpos, mul_comm, ← nsmul_eq_mul]
  refine Finset.card_nsmul_le_sum _ _ _ fun c hc => ?_
  rw [tfStep_belief]
  refine one_div_le_one_div_of_le (by positivity) (add_le_add le_rfl (Real.exp_le_exp.2 ?_))
  have h := conf_diff (f := f) (rho := rho) hg hk hM (p := tfAt l f rho gamma t n) (q := ((fun _ => 0), fun _ => 0)) (fun s hs => by
    have e : trustTau (S := S) (V := V) (X := X) ((fun _ => 0), fun _ => 0) s = 0 := by simp [trustTau]
    rw [e, sub_zero, abs_of_nonneg (tau_nonneg (tf_inv h0 h1 n) hs)]
    exact tau_bounded hg hk (kappa_nonneg hl hg hk) (startGap_grows hk1) h0 h1 ((le_max_left _ _).trans (le_max_left _ _)) n s hs)
    ((mem_allClaims l).2 (mem_claims_of_claimsOf l hc))
  have e : conf l f rho gamma ((fun _ => 0), fun _ => 0) c = 0 := by simp [conf, trustTau]
  rw [e, sub_zero] at h
  linarith [(abs_le.1 h).1]

/-- **C113.** The same for every measure, also the cosine measure of the default iterator, if `1 ≤ N` and moreover
`kappa ^ N * M ≤ 2 / (1 + exp (kappa M)) ^ 2` for `M = max (-log (1 - t)) (log 2 / (1 - kappa))`. -/
theorem C113_settles_any (l : List (S × V × X)) (hl : l ≠ []) (am : Bool) (d : Dataset S V X Ex) (hd : Dataset.mk' l am (finImp f) = .ok d)
    {rho gamma kappa t th : ℝ} (hg : 0 ≤ gamma) (hk : ∀ c ∈ allClaims l, amplification l f rho gamma c ≤ kappa) (hk1 : kappa < 1)
    (h0 : 0 ≤ t) (h1 : t < 1) (m : Measure) (pr : Option Prior) (N : Nat) (hN1 : 1 ≤ N)
    (hN : (allSources l).card * (kappa ^ N * startGap kappa t t) < th)
    (hN2 : kappa ^ N * startGap kappa t t ≤ 2 / (1 + Real.exp (kappa * startGap kappa t t)) ^ 2)
    (limit : Int) (fuel : Nat) (clock : Nat → Ex) (st : IterState Ex) (hlim : ((N + 1 : Nat) : Int) ≤ limit) (hfuel : N + 1 < fuel) :
    ∃ r, (⟨.truthFinder (fin rho) (fin gamma) (fin t), .conv (some m) (fin th) limit, pr⟩ : AlgCfg Ex).run d fuel clock st = .ok r ∧
      ∃ n, r.iterations = some n ∧ n ≤ N + 1 := by
  obtain rfl := mk'_ex hd
  refine run_succeeds_of_lt (by simp) hl (fun limit => tf_implements f (.conv (some m) (fin th) limit) pr rho gamma t h0 h1) (N := N)
    ?_ limit fuel clock st hlim hfuel
  obtain ⟨k, rfl⟩ : ∃ k, N = k + 1 := ⟨N - 1, by omega⟩
  have hM : 0 ≤ startGap kappa t t :=
    (div_nonneg (Real.log_nonneg (by norm_num)) (by linarith)).trans (le_max_right _ _)
  have hk0 := kappa_nonneg hl hg hk
  have h := distance_le (allSources_nonempty hl) (lo := 1 / (1 + Real.exp (kappa * startGap kappa t t))) (by positivity)
    (by positivity : 0 ≤ kappa ^ (k + 1) * startGap kappa t t)
    (fun s hs => tf_low (f := f) (rho := rho) hl hg hk hk1 h0 h1 (k + 1) s ((mem_allSources l).1 hs))
    (fun s hs => tf_low (f := f) (rho := rho) hl hg hk hk1 h0 h1 k s ((mem_allSources l).1 hs))
    (fun s hs => by
      have hs' := (mem_allSources l).1 hs
      rw [abs_sub_comm]
      exact (trust_tau (tf_inv h0 h1 (k + 1)) (tf_inv h0 h1 (k + 1 + 1)) hs').trans
        ((tf_forgets (f := f) (rho := rho) hg hk hk0 hk1 h0 h1 h0 h1 1 (k + 1)).1 s hs'))
    (by rw [one_div, inv_pow, ← div_eq_mul_inv]; exact hN2) m
  rw [tf_succ] at h
  exact h.trans_lt hN

namespace Contracts

/-- Two values of a variable, one with two sources and one with one. -/
def triples : List (Nat × Nat × Nat) := [(0, 0, 1), (1, 0, 2), (1, 1, 5), (2, 0, 2)]

/-- Values of a variable contradict each other. -/
def contradict : Option (Nat → Nat → Nat → Option ℝ) := some fun _ _ _ => some (-1)

theorem amplified : ∀ c ∈ allClaims triples, amplification triples contradict (1 / 2) (3 / 10) c ≤ 3 / 4 := by
  intro c hc
  have e : allClaims triples = {(0, 1), (0, 2), (1, 5)} := by decide
  rw [e] at hc
  simp only [Finset.mem_insert, Finset.mem_singleton] at hc
  have c1 : (sourcesOf triples (0, 1)).card = 1 := by decide
  have c2 : (sourcesOf triples (0, 2)).card = 2 := by decide
  have c3 : (sourcesOf triples (1, 5)).card = 1 := by decide
  have r1 : (rivals triples (0, 1)).erase (0, 1) = {(0, 2)} := by decide
  have r2 : (rivals triples (0, 2)).erase (0, 2) = {(0, 1)} := by decide
  have r3 : (rivals triples (1, 5)).erase (1, 5) = ∅ := by decide
  rcases hc with rfl | rfl | rfl
  · rw [amplification, r1, Finset.sum_singleton, c1, c2]
    norm_num [impVal, contradict]
  · rw [amplification, r2, Finset.sum_singleton, c1, c2]
    norm_num [impVal, contradict]
  · rw [amplification, r3, Finset.sum_empty, c3]
    norm_num

theorem gap9 (t : ℝ) (h0 : 0 ≤ t) (h1 : t ≤ 9 / 10) : startGap (3 / 4) (9 / 10) t ≤ 9 := by
  have l2 := Real.log_le_sub_one_of_pos (by norm_num : (0 : ℝ) < 2)
  have l10 := Real.log_le_sub_one_of_pos (by norm_num : (0 : ℝ) < 10)
  have e : Real.log (1 / 10) = -Real.log 10 := by rw [one_div, Real.log_inv]
  have lt := Real.log_le_log (by norm_num : (0 : ℝ) < 1 / 10) (by linarith : (1 : ℝ) / 10 ≤ 1 - t)
  refine max_le (max_le ?_ ?_) ?_
  · rw [show (1 : ℝ) - 9 / 10 = 1 / 10 by norm_num, e]
    linarith
  · linarith
  · rw [div_le_iff₀ (by norm_num)]
    linarith

theorem admissible : Dataset.mk' triples false (finImp contradict) = .ok (datasetOf triples (finImp contradict)) := by
  refine (mk'_ok_iff triples ex_one_ne_zero false (finImp contradict) _).2 ⟨rfl, .inr (by simp [NoRepeats, triples]), ?_⟩
  rintro ⟨c, -, e, -, -, -, x, hx, hb⟩
  have : x = fin (-1) := by
    simp only [Option.map_some, Option.some.injEq] at hx
    exact hx.symm
  subst this
  revert hb
  simp [badImp]

/-- With all parameters at their defaults, also the iterator, TruthFinder ends after at most 61 iterations on this dataset. -/
example (clock : Nat → Ex) (pr : Option Prior) : ∃ (d : Dataset Nat Nat Nat Ex) (r : Result Nat Nat Nat Ex) (n : Nat),
    Dataset.mk' triples false (finImp contradict) = .ok d ∧
    AlgCfg.run ⟨.truthFinder (fin (1 / 2)) (fin (3 / 10)) (fin (9 / 10)), .conv (some .cosine) (fin (1 / 1000)) 100, pr⟩ d 101 clock {} = .ok r ∧
    r.iterations = some n ∧ n ≤ 61 := by
  have hg := gap9 (9 / 10) (by norm_num) le_rfl
  have c3 : (allSources triples).card = 3 := by decide
  have he : Real.exp (3 / 4 * startGap (3 / 4) (9 / 10) (9 / 10)) ≤ 3 ^ 7 := by
    refine (Real.exp_le_exp.2 (by linarith : _ ≤ (7 : ℝ))).trans ?_
    have e7 : Real.exp 7 = Real.exp 1 ^ 7 := by rw [← Real.exp_nat_mul]; norm_num
    rw [e7]
    exact pow_le_pow_left₀ (Real.exp_pos _).le (by linarith [Real.exp_one_lt_d9]) 7
  have hp := Real.exp_pos (3 / 4 * startGap (3 / 4) (9 / 10) (9 / 10))
  obtain ⟨r, h1, n, h2, h3⟩ := C113_settles_any triples (by simp [triples]) false _ admissible (by norm_num) amplified (by norm_num)
    (t := 9 / 10) (th := 1 / 1000) (by norm_num) (by norm_num) .cosine pr 60 (by norm_num)
    (by
      rw [c3]
      refine (mul_le_mul_of_nonneg_left (mul_le_mul_of_nonneg_left hg (by positivity)) (by positivity)).trans_lt ?_
      norm_num)
    (by
      refine (mul_le_mul_of_nonneg_left hg (by positivity)).trans ?_
      refine le_trans ?_ (div_le_div_of_nonneg_left (by norm_num) (by positivity)
        (pow_le_pow_left₀ (by positivity) (add_le_add le_rfl he) 2))
      norm_num)
    100 101 clock {} (by norm_num) (by norm_num)
  exact ⟨_, r, n, admissible, h1, h2, h3⟩

/-- C113 applies to this dataset with the default parameters: the scores after 40 iterations with initial trusts 0.9 (the default) and 0.5 differ by less than 0.0001. -/
example (clock : Nat → Ex) : ∃ (d : Dataset Nat Nat Nat Ex) (r r' : Result Nat Nat Nat Ex),
    Dataset.mk' triples false (finImp contradict) = .ok d ∧
    AlgCfg.run ⟨.truthFinder (fin (1 / 2)) (fin (3 / 10)) (fin (9 / 10)), .fixed 40, none⟩ d 41 clock {} = .ok r ∧
    AlgCfg.run ⟨.truthFinder (fin (1 / 2)) (fin (3 / 10)) (fin (1 / 2)), .fixed 40, none⟩ d 41 clock {} = .ok r' ∧
    ∀ s ∈ allSources triples, ∃ y y' : ℝ, TrustIn r s y ∧ TrustIn r' s y' ∧ |y - y'| ≤ 1 / 10000 := by
  have hd := admissible
  obtain ⟨r, hr, hn, -⟩ := (tf_implements (l := triples) contradict (.fixed 40) none (1 / 2) (3 / 10) (9 / 10) (by norm_num) (by norm_num)).run_fixed
    (by simp) (by simp [triples]) rfl (by norm_num : 40 < 41) clock {}
  obtain ⟨r', hr', hn', -⟩ := (tf_implements (l := triples) contradict (.fixed 40) none (1 / 2) (3 / 10) (1 / 2) (by norm_num) (by norm_num)).run_fixed
    (by simp) (by simp [triples]) rfl (by norm_num : 40 < 41) clock {}
  refine ⟨_, r, r', hd, hr, hr', fun s hs => ?_⟩
  obtain ⟨y, y', h1, h2, h3⟩ := (C113_forgets triples false _ hd (by norm_num) amplified (by norm_num) (by norm_num) (by norm_num) (by norm_num)
    (by norm_num) hr hr' hn hn' le_rfl).1 s hs
  refine ⟨y, y', h1, h2, h3.trans ?_⟩
  have g := gap9 (1 / 2) (by norm_num) (by norm_num)
  refine (mul_le_mul_of_nonneg_left g (by positivity)).trans ?_
  norm_num

end Contracts

end TD
