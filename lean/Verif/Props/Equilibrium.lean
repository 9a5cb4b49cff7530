import Verif.Props.TruthFinderSame
/-!
# What TruthFinder returns is close to its equilibrium (C116)

If little is amplified TruthFinder has exactly one equilibrium (`C113_converges`). The theorems say how far from it the scores are that
are returned when the `ConvergenceIterator` is satisfied, in exact arithmetic (`C116_exact`) and in double precision (`C116_double`), and
after a number of iterations in double precision (`C116_after`).
-/

namespace TD
open Spec Double Ex
attribute [-instance] instBEqProd

variable {S V X : Type} [DecidableEq S] [DecidableEq V] [DecidableEq X] {l : List (S × V × X)} {f : Option (V → X → X → Option ℝ)}

theorem le_distance {A : Type} {F : Finset A} {m : Measure} (hm : m ≠ .cosine) (v w : A → ℝ) {a : A} (ha : a ∈ F) :
    |v a - w a| ≤ distance m F v w := by
  cases m with
  | l1 => exact Finset.single_le_sum (f := fun a => |v a - w a|) (fun _ _ => abs_nonneg _) ha
  | l2 =>
    refine Real.abs_le_sqrt ?_
    exact Finset.single_le_sum (f := fun a => (v a - w a) ^ 2) (fun _ _ => sq_nonneg _) ha
  | lInf => exact le_top (f := fun a => |v a - w a|) ha
  | cosine => exact absurd rfl hm

/-- The trustworthiness scores are as close as the trust scores, if these are not close to 1. -/
theorem tau_trust {p q : Scores S V X} {s : S} {w : ℝ} (hw : 0 < w) (hp : w ≤ 1 - p.1 s) (hq : w ≤ 1 - q.1 s) :
    |trustTau p s - trustTau q s| ≤ |p.1 s - q.1 s| / w := by
  have key : ∀ {x y : ℝ}, w ≤ x → w ≤ y → Real.log x - Real.log y ≤ |x - y| / w := by
    intro x y hx hy
    have h := Real.log_le_sub_one_of_pos (div_pos (hw.trans_le hx) (hw.trans_le hy))
    rw [Real.log_div (hw.trans_le hx).ne' (hw.trans_le hy).ne'] at h
    refine h.trans ?_
    rw [div_sub_one (hw.trans_le hy).ne', div_le_div_iff₀ (hw.trans_le hy) hw]
    have := le_abs_self (x - y)
    have := abs_nonneg (x - y)
    nlinarith
  have e : |1 - q.1 s - (1 - p.1 s)| = |p.1 s - q.1 s| := by congr 1; ring
  have e' : |1 - p.1 s - (1 - q.1 s)| = |p.1 s - q.1 s| := by rw [abs_sub_comm (p.1 s)]; congr 1; ring
  have k1 := key hp hq
  have k2 := key hq hp
  rw [e'] at k1
  rw [e] at k2
  unfold trustTau
  rw [abs_le]
  constructor <;> linarith

/-- How close scores are to the equilibrium, from the change in the last iteration. -/
theorem near_equilibrium {rho gamma kappa E : ℝ} (hl : l ≠ []) (hg : 0 ≤ gamma) (hk : ∀ c ∈ allClaims l, amplification l f rho gamma c ≤ kappa)
    (hk1 : kappa < 1) {q : Scores S V X} (hb : Balanced l f rho gamma q) {p : Scores S V X}
    (h : ∀ s ∈ sources l, |trustTau p s - trustTau (tfStep l (impVal f) rho gamma p) s| ≤ E) :
    (∀ s ∈ sources l, |trustTau (tfStep l (impVal f) rho gamma p) s - trustTau q s| ≤ kappa * E / (1 - kappa)) ∧
    ∀ c ∈ allClaims l, |(tfStep l (impVal f) rho gamma p).2 c - q.2 c| ≤ kappa * E / (1 - kappa) := by
  have hk0 := kappa_nonneg hl hg hk
  obtain ⟨s0, hs0, hmax⟩ := Finset.exists_max_image (allSources l)
    (fun s => |trustTau (tfStep l (impVal f) rho gamma p) s - trustTau q s|) (allSources_nonempty hl)
  generalize hX : |trustTau (tfStep l (impVal f) rho gamma p) s0 - trustTau q s0| = B at hmax
  have hE : 0 ≤ E := (abs_nonneg _).trans (h s0 ((mem_allSources l).1 hs0))
  have hB : 0 ≤ B := hX ▸ abs_nonneg _
  have hp : ∀ s ∈ sources l, |trustTau p s - trustTau q s| ≤ E + B := fun s hs =>
    (abs_sub_le _ (trustTau (tfStep l (impVal f) rho gamma p) s) _).trans (add_le_add (h s hs) (hmax s ((mem_allSources l).2 hs)))
  obtain ⟨c1, c2⟩ := tf_contract (f := f) (rho := rho) hg hk hk0 (add_nonneg hE hB) hp
  have eq : ∀ s ∈ sources l, trustTau (tfStep l (impVal f) rho gamma q) s = trustTau q s := by
    intro s hs
    unfold trustTau
    rw [hb.1 s ((mem_allSources l).2 hs)]
  have hBle : kappa * (E + B) ≤ kappa * E / (1 - kappa) := by
    have h0 := c1 s0 ((mem_allSources l).1 hs0)
    rw [eq s0 ((mem_allSources l).1 hs0), hX] at h0
    rw [le_div_iff₀ (by linarith)]
    nlinarith
  refine ⟨fun s hs => ?_, fun c hc => ?_⟩
  · rw [← eq s hs]
    exact (c1 s hs).trans hBle
  · rw [← hb.2 c hc]
    exact (c2 c hc).trans hBle

/-- The same, with the distance of the trust scores. -/
theorem near_of_distance {rho gamma kappa : ℝ} (hl : l ≠ []) (hg : 0 ≤ gamma) (hk : ∀ c ∈ allClaims l, amplification l f rho gamma c ≤ kappa)
    (hk1 : kappa < 1) {q : Scores S V X} (hq : ∀ s ∈ allSources l, 0 ≤ q.1 s ∧ q.1 s < 1) (hb : Balanced l f rho gamma q)
    {p : Scores S V X} {w : ℝ} (hw : 0 < w) (h1 : ∀ s ∈ sources l, w ≤ 1 - p.1 s)
    (hp' : TfInv l (tfStep l (impVal f) rho gamma p)) (h2 : ∀ s ∈ sources l, w ≤ 1 - (tfStep l (impVal f) rho gamma p).1 s)
    {m : Measure} (hm : m ≠ .cosine) {th : ℝ} (hd : distance m (allSources l) p.1 (tfStep l (impVal f) rho gamma p).1 ≤ th) :
    (∀ s ∈ allSources l, |(tfStep l (impVal f) rho gamma p).1 s - q.1 s| ≤ kappa * (th / w) / (1 - kappa)) ∧
    ∀ c ∈ allClaims l, |(tfStep l (impVal f) rho gamma p).2 c - q.2 c| ≤ kappa * (th / w) / (1 - kappa) := by
  obtain ⟨k1, k2⟩ := near_equilibrium (f := f) (E := th / w) hl hg hk hk1 hb (p := p) fun s hs =>
    (tau_trust hw (h1 s hs) (h2 s hs)).trans
      (div_le_div_of_nonneg_right ((le_distance hm p.1 _ ((mem_allSources l).2 hs)).trans hd) hw.le)
  refine ⟨fun s hs => ?_, k2⟩
  have hs' := (mem_allSources l).1 hs
  exact (trust_tau hp' (fun s hs => hq s ((mem_allSources l).2 hs)) hs').trans (k1 s hs')

/-- **C116.** TruthFinder in exact arithmetic, with any implications, on a dataset with amplification at most `kappa < 1`: a run with a
`ConvergenceIterator` (measure L1, L2 or L_INF) of threshold `th` that succeeds returns scores that differ from those of the equilibrium
`q` by at most `kappa / (1 - kappa) * exp M * th` for `M = max (-log (1 - t)) (log 2 / (1 - kappa))`. -/
theorem C116_exact (l : List (S × V × X)) (am : Bool) (d : Dataset S V X Ex) (hd : Dataset.mk' l am (finImp f) = .ok d)
    {rho gamma kappa t th : ℝ} (hg : 0 ≤ gamma) (hk : ∀ c ∈ allClaims l, amplification l f rho gamma c ≤ kappa) (hk1 : kappa < 1)
    (h0 : 0 ≤ t) (h1 : t < 1) (m : Measure) (hm : m ≠ .cosine) (lim : Int) (pr : Option Prior)
    (q : Scores S V X) (hq : ∀ s ∈ allSources l, 0 ≤ q.1 s ∧ q.1 s < 1) (hb : Balanced l f rho gamma q)
    (fuel : Nat) (clock : Nat → Ex) (st : IterState Ex) (r : Result S V X Ex)
    (hr : AlgCfg.run ⟨.truthFinder (fin rho) (fin gamma) (fin t), .conv (some m) (fin th) lim, pr⟩ d fuel clock st = .ok r) :
    (∀ s ∈ allSources l, ∃ y : ℝ, TrustIn r s y ∧ |y - q.1 s| ≤ kappa / (1 - kappa) * Real.exp (startGap kappa t t) * th) ∧
    ∀ c ∈ allClaims l, ∃ b : ℝ, BeliefIn r c b ∧ |b - q.2 c| ≤ kappa / (1 - kappa) * Real.exp (startGap kappa t t) * th := by
  obtain rfl := mk'_ex hd
  have H := tf_implements (l := l) f (.conv (some m) (fin th) lim) pr rho gamma t h0 h1
  obtain ⟨n, e, rep⟩ := H.run_reports (by simp) hr
  by_cases hl : l = []
  · subst hl
    refine ⟨fun s hs => absurd hs (by simp [allSources, recorded, firstsBy]), fun c hc => absurd hc (by simp [allClaims, recorded, firstsBy])⟩
  have hk0 := kappa_nonneg hl hg hk
  rw [run_eq] at hr
  cases he : AlgCfg.exec ⟨.truthFinder (fin rho) (fin gamma) (fin t), .conv (some m) (fin th) lim, pr⟩ (matsOf l (finImp f)) fuel st with
  | error e => rw [he] at hr; cases hr
  | ok out =>
    rw [he] at hr
    cases hr
    obtain ⟨k, hk', hlt, -⟩ := exact_ended H hl rfl (fun q => by first | exact .inl rfl | exact .inr rfl) he
    have e' : n = k + 1 := by
      have : some out.iterations = some n := e
      rw [Option.some.injEq] at this
      omega
    subst e'
    have low : ∀ j, ∀ s ∈ sources l, Real.exp (-startGap kappa t t) ≤ 1 - (tfAt l f rho gamma t j).1 s := by
      intro j s hs
      have h2 := tau_bounded (f := f) (rho := rho) (M := startGap kappa t t) hg hk hk0 (startGap_grows hk1) h0 h1
        ((le_max_left _ _).trans (le_max_left _ _)) j s hs
      have h3 := (tf_inv (l := l) (f := f) (rho := rho) (gamma := gamma) h0 h1 j s hs).2
      have h4 := Real.exp_le_exp.2 (neg_le_neg h2)
      rwa [trustTau, neg_neg, Real.exp_log (by linarith)] at h4
    have hd : distance m (allSources l) (tfAt l f rho gamma t k).1 (tfStep l (impVal f) rho gamma (tfAt l f rho gamma t k)).1 ≤ th := by
      rw [← tf_succ]
      exact hlt.le
    have l2 := low (k + 1)
    have i2 := tf_inv (l := l) (f := f) (rho := rho) (gamma := gamma) h0 h1 (k + 1)
    rw [tf_succ] at l2 i2
    obtain ⟨k1, k2⟩ := near_of_distance (f := f) hl hg hk hk1 hq hb (Real.exp_pos _) (low k) i2 l2 hm hd
    have eb : kappa * (th / Real.exp (-startGap kappa t t)) / (1 - kappa) = kappa / (1 - kappa) * Real.exp (startGap kappa t t) * th := by
      rw [Real.exp_neg, div_inv_eq_mul]
      ring
    rw [eb] at k1 k2
    rw [← tf_succ] at k1 k2
    exact ⟨fun s hs => ⟨_, (rep.trustIn hs).2 rfl, k1 s hs⟩, fun c hc => ⟨_, (rep.beliefIn hc).2 rfl, k2 c hc⟩⟩

/-- The trustworthiness scores of the equilibrium. -/
theorem balanced_tau {rho gamma kappa : ℝ} (hl : l ≠ []) (hg : 0 ≤ gamma) (hk : ∀ c ∈ allClaims l, amplification l f rho gamma c ≤ kappa)
    (hk1 : kappa < 1) {q : Scores S V X} (hq : TfInv l q) (hb : Balanced l f rho gamma q) :
    ∀ s ∈ sources l, trustTau q s ≤ Real.log 2 / (1 - kappa) := by
  have hk0 := kappa_nonneg hl hg hk
  obtain ⟨s0, hs0, hmax⟩ := Finset.exists_max_image (allSources l) (trustTau q) (allSources_nonempty hl)
  have hs0' := (mem_allSources l).1 hs0
  have hX := tau_nonneg hq hs0'
  have h := (tf_contract (f := f) (rho := rho) hg hk hk0 hX (p := q) (q := ((fun _ => 0), fun _ => 0)) (fun s hs => by
    have e : trustTau (S := S) (V := V) (X := X) ((fun _ => 0), fun _ => 0) s = 0 := by simp [trustTau]
    rw [e, sub_zero, abs_of_nonneg (tau_nonneg hq hs)]
    exact hmax s ((mem_allSources l).2 hs))).1 s0 hs0'
  rw [tau_half rho gamma hs0'] at h
  have e : trustTau (tfStep l (impVal f) rho gamma q) s0 = trustTau q s0 := by
    unfold trustTau
    rw [hb.1 s0 hs0]
  rw [e] at h
  have h2 := (abs_le.1 h).2
  intro s hs
  refine (hmax s ((mem_allSources l).2 hs)).trans ?_
  rw [le_div_iff₀ (by linarith)]
  linarith

/-- How close scores are to the equilibrium after `n` iterations. -/
theorem tf_near_after {rho gamma kappa : ℝ} (hl : l ≠ []) (hg : 0 ≤ gamma) (hk : ∀ c ∈ allClaims l, amplification l f rho gamma c ≤ kappa)
    (hk1 : kappa < 1) {q : Scores S V X} (hq : ∀ s ∈ allSources l, 0 ≤ q.1 s ∧ q.1 s < 1) (hb : Balanced l f rho gamma q)
    {t : ℝ} (h0 : 0 ≤ t) (h1 : t < 1) (n : Nat) (hn : 1 ≤ n) :
    (∀ s ∈ allSources l, |(tfAt l f rho gamma t n).1 s - q.1 s| ≤ kappa ^ n * startGap kappa t t) ∧
    ∀ c ∈ allClaims l, |(tfAt l f rho gamma t n).2 c - q.2 c| ≤ kappa ^ n * startGap kappa t t := by
  have hk0 := kappa_nonneg hl hg hk
  have hq' : TfInv l q := fun s hs => hq s ((mem_allSources l).2 hs)
  have hM : 0 ≤ startGap kappa t t :=
    (div_nonneg (Real.log_nonneg (by norm_num)) (by linarith)).trans (le_max_right _ _)
  have eq : ∀ s ∈ sources l, trustTau (tfStep l (impVal f) rho gamma q) s = trustTau q s := by
    intro s hs
    unfold trustTau
    rw [hb.1 s ((mem_allSources l).2 hs)]
  have all : ∀ n, ∀ s ∈ sources l, |trustTau (tfAt l f rho gamma t n) s - trustTau q s| ≤ kappa ^ n * startGap kappa t t := by
    intro n
    induction n with
    | zero =>
      intro s hs
      rw [pow_zero, one_mul]
      have b1 : trustTau (tfAt l f rho gamma t 0) s ≤ startGap kappa t t := (le_max_left _ _).trans (le_max_left _ _)
      have b2 := (balanced_tau (f := f) hl hg hk hk1 hq' hb s hs).trans (le_max_right (max (-Real.log (1 - t)) (-Real.log (1 - t))) _)
      have b3 := tau_nonneg (tf_inv (l := l) (f := f) (rho := rho) (gamma := gamma) h0 h1 0) hs
      have b4 := tau_nonneg hq' hs
      unfold startGap at *
      rw [abs_le]
      constructor <;> linarith
    | succ n ih =>
      intro s hs
      have h := (tf_contract (f := f) (rho := rho) hg hk hk0 (mul_nonneg (pow_nonneg hk0 n) hM) ih).1 s hs
      rwa [eq s hs, ← tf_succ, ← mul_assoc, ← pow_succ'] at h
  refine ⟨fun s hs => ?_, fun c hc => ?_⟩
  · have hs' := (mem_allSources l).1 hs
    exact (trust_tau (tf_inv h0 h1 n) hq' hs').trans (all n s hs')
  · obtain ⟨k, rfl⟩ : ∃ k, n = k + 1 := ⟨n - 1, by omega⟩
    have h := (tf_contract (f := f) (rho := rho) hg hk hk0 (mul_nonneg (pow_nonneg hk0 k) hM) (all k)).2 c hc
    rwa [hb.2 c hc, ← tf_succ, ← mul_assoc, ← pow_succ'] at h

variable {ω : Platform}

theorem amplification_none {b : Nat} (hb : ∀ c, (sourcesOf l c).card ≤ b) {g : ℝ} (hg0 : 0 ≤ g) :
    ∀ c ∈ allClaims l, amplification l (none : Option (V → X → X → Option ℝ)) 0 g c ≤ g * b := by
  intro c _
  unfold amplification
  rw [abs_zero, zero_mul, add_zero]
  exact mul_le_mul_of_nonneg_left (by exact_mod_cast hb c) hg0

/-- **C116.** TruthFinder in double precision, without implications, with at most `a` claims of each source and `b` sources of each claim,
`g b < 1`, and `δ` and `E` as in C112: a run with a `ConvergenceIterator` (measure L1, L2 or L_INF) of threshold `th` that succeeds returns
scores that differ from those of the equilibrium `q` by at most `g b / (1 - g b) * (th + haze) / δ + E`. -/
theorem C116_double (l : List (S × V × X)) (hl : l ≠ []) (am : Bool) (d : Dataset S V X (FP (Rounding.binary64 ω)))
    (h : Dataset.mk' l am none = .ok d)
    (hS : (allSources l).card ≤ 2 ^ 46) (hC : (allClaims l).card ≤ 2 ^ 46)
    {a b : Nat} (ha : ∀ s, (claimsOf l s).card ≤ a) (hb : ∀ c, (sourcesOf l c).card ≤ b)
    (rho : FP (Rounding.binary64 ω)) (g : ℝ) (hg0 : 0 ≤ g) (hg1 : g ≤ 1) (t0 : ℝ) (ht : IsDouble t0) (ht0 : 1 / 4 ≤ t0)
    {δ : ℝ} (hδ : 0 < δ) (ht1 : t0 ≤ 1 - δ) (hgb : g * b < 1) (hδ1 : δ ^ (1 - g * b) ≤ 1 / 2)
    (E : ℝ) (hE : E = (a + b + 23) / (2 ^ 50 * δ * (1 - g * b))) (hk : E ≤ 1 / 2)
    (m : Measure) (hm : m ≠ .cosine) (th : ℝ) (lim : Int) (pr : Option Prior)
    (q : Scores S V X) (hq : ∀ s ∈ allSources l, 0 ≤ q.1 s ∧ q.1 s < 1) (hbal : Balanced l none 0 g q)
    (fuel : Nat) (clock : Nat → FP (Rounding.binary64 ω)) (st : IterState (FP (Rounding.binary64 ω)))
    (r : Result S V X (FP (Rounding.binary64 ω)))
    (hr : AlgCfg.run ⟨.truthFinder rho (FP.fin g) (FP.fin t0), .conv (some m) (FP.fin th) lim, pr⟩ d fuel clock st = .ok r) :
    AbsClose l r q (g * b / (1 - g * b) * (th + haze m l E) / δ + E) := by
  have hN : ∃ N, r.iterations = some N := by
    obtain rfl := ((mk'_ok_iff l one_ne_zero_fp am none d).1 h).1
    rw [run_eq] at hr
    split at hr
    · cases hr
    · cases hr; exact ⟨_, rfl⟩
  obtain ⟨N, hN⟩ := hN
  have hle := tfErr_le a b hg0 hδ hgb N
  have below := tfExact_below (l := l) hb hg0 (by linarith : 0 ≤ t0) hδ ht1 hδ1
  obtain ⟨h1, h2, -⟩ := (C114_any l hl am d h hS hC ha hb rho g hg0 hg1 t0 ht ht0 hδ ht1 m (fun h => absurd h hm) th lim pr fuel clock st N
    (fun j _ _ => below j) _ rfl (hle.trans (hE ▸ hk))).1 r hr hN
  have acc := C112_always l am d h hS hC ha hb rho g hg0 hg1 t0 ht ht0 hδ ht1 hgb hδ1 (hE ▸ hk) _ pr fuel clock st r hr N hN
  rw [← hE] at acc
  obtain ⟨k, rfl⟩ : ∃ k, N = k + 1 := ⟨N - 1, by omega⟩
  have hz : haze m l ((a + b + 23) / (2 ^ 50 * δ) * ∑ i ∈ Finset.range (k + 1), (g * b) ^ i) ≤ haze m l E := by
    rw [← hE] at hle
    exact haze_mono m l hle
  rw [Nat.add_sub_cancel, tfChange_eq, tfExact_eq l 0, tfExact_eq l 0, tf_succ] at h2
  have i2 := tf_inv (l := l) (f := none) (rho := 0) (gamma := g) (by linarith : 0 ≤ t0) (by linarith : t0 < 1) (k + 1)
  have l1 := below k
  have l2 := below (k + 1)
  rw [tfExact_eq l 0] at l1 l2
  rw [tf_succ] at i2 l2
  obtain ⟨k1, k2⟩ := near_of_distance (f := none) (rho := 0) hl hg0 (amplification_none hb hg0) hgb hq hbal hδ
    (fun s hs => by linarith [l1 s ((mem_allSources l).2 hs)]) i2 (fun s hs => by linarith [l2 s ((mem_allSources l).2 hs)]) hm
    (h2.le.trans (add_le_add le_rfl hz))
  rw [← tf_succ, ← tfExact_eq] at k1 k2
  have eb : g * b * ((th + haze m l E) / δ) / (1 - g * b) = g * b / (1 - g * b) * (th + haze m l E) / δ := by ring
  rw [eb] at k1 k2
  refine ⟨fun s hs => ?_, fun c hc => ?_⟩
  · obtain ⟨y, y1, y2⟩ := acc.1 s hs
    refine ⟨y, y1, ?_⟩
    have := abs_sub_le y ((tfExact l g t0 (k + 1)).1 s) (q.1 s)
    have := k1 s hs
    linarith
  · obtain ⟨y, y1, y2⟩ := acc.2 c hc
    refine ⟨y, y1, ?_⟩
    have := abs_sub_le y ((tfExact l g t0 (k + 1)).2 c) (q.2 c)
    have := k2 c hc
    linarith

/-- **C116.** After `n ≥ 1` iterations in double precision, with any iterator, all scores differ from those of the equilibrium by at most
`(g b) ^ n * max (-log (1 - t0)) (log 2 / (1 - g b)) + E`. -/
theorem C116_after (l : List (S × V × X)) (hl : l ≠ []) (am : Bool) (d : Dataset S V X (FP (Rounding.binary64 ω)))
    (h : Dataset.mk' l am none = .ok d)
    (hS : (allSources l).card ≤ 2 ^ 46) (hC : (allClaims l).card ≤ 2 ^ 46)
    {a b : Nat} (ha : ∀ s, (claimsOf l s).card ≤ a) (hb : ∀ c, (sourcesOf l c).card ≤ b)
    (rho : FP (Rounding.binary64 ω)) (g : ℝ) (hg0 : 0 ≤ g) (hg1 : g ≤ 1) (t0 : ℝ) (ht : IsDouble t0) (ht0 : 1 / 4 ≤ t0)
    {δ : ℝ} (hδ : 0 < δ) (ht1 : t0 ≤ 1 - δ) (hgb : g * b < 1) (hδ1 : δ ^ (1 - g * b) ≤ 1 / 2)
    (E : ℝ) (hE : E = (a + b + 23) / (2 ^ 50 * δ * (1 - g * b))) (hk : E ≤ 1 / 2)
    (it : IterCfg (FP (Rounding.binary64 ω))) (pr : Option Prior)
    (q : Scores S V X) (hq : ∀ s ∈ allSources l, 0 ≤ q.1 s ∧ q.1 s < 1) (hbal : Balanced l none 0 g q)
    (fuel : Nat) (clock : Nat → FP (Rounding.binary64 ω)) (st : IterState (FP (Rounding.binary64 ω)))
    (r : Result S V X (FP (Rounding.binary64 ω)))
    (hr : AlgCfg.run ⟨.truthFinder rho (FP.fin g) (FP.fin t0), it, pr⟩ d fuel clock st = .ok r)
    (n : Nat) (hn : r.iterations = some n) (h1 : 1 ≤ n) :
    AbsClose l r q ((g * b) ^ n * startGap (g * b) t0 t0 + E) := by
  have acc := C112_always l am d h hS hC ha hb rho g hg0 hg1 t0 ht ht0 hδ ht1 hgb hδ1 (hE ▸ hk) it pr fuel clock st r hr n hn
  rw [← hE] at acc
  obtain ⟨k1, k2⟩ := tf_near_after (f := none) (rho := 0) hl hg0 (amplification_none hb hg0) hgb hq hbal (by linarith : 0 ≤ t0) (by linarith) n h1
  rw [← tfExact_eq] at k1 k2
  refine ⟨fun s hs => ?_, fun c hc => ?_⟩
  · obtain ⟨y, y1, y2⟩ := acc.1 s hs
    refine ⟨y, y1, ?_⟩
    have := abs_sub_le y ((tfExact l g t0 n).1 s) (q.1 s)
    have := k1 s hs
    linarith
  · obtain ⟨y, y1, y2⟩ := acc.2 c hc
    refine ⟨y, y1, ?_⟩
    have := abs_sub_le y ((tfExact l g t0 n).2 c) (q.2 c)
    have := k2 c hc
    linarith

namespace Equilibrium

/-- A conflict about one variable, and another variable. -/
def triples : List (Nat × Nat × Nat) := [(0, 0, 1), (1, 0, 2), (1, 1, 5), (2, 0, 2)]

theorem perSource (s : Nat) : (claimsOf triples s).card ≤ 2 := by
  by_cases hs : s ∈ sources triples
  · exact (by decide : ∀ s ∈ sources triples, (claimsOf triples s).card ≤ 2) s hs
  · rw [Finset.card_eq_zero.2]
    · norm_num
    · by_contra hne
      obtain ⟨c, hc⟩ := Finset.nonempty_iff_ne_empty.2 hne
      exact hs (mem_sources_of_sourcesOf _ ((mem_sourcesOf _).2 ((mem_claimsOf _).1 hc)))

theorem perClaim (c : Nat × Nat) : (sourcesOf triples c).card ≤ 2 := by
  by_cases hc : c ∈ claims triples
  · exact (by decide : ∀ c ∈ claims triples, (sourcesOf triples c).card ≤ 2) c hc
  · rw [Finset.card_eq_zero.2]
    · norm_num
    · by_contra hne
      obtain ⟨s, hs⟩ := Finset.nonempty_iff_ne_empty.2 hne
      exact hc (mem_claims_of_claimsOf _ ((mem_claimsOf _).2 ((mem_sourcesOf _).1 hs)))

theorem root : ((1 : ℝ) / 4) ^ ((1 : ℝ) - 1 / 4 * (2 : Nat)) ≤ 1 / 2 := by
  have e : ((1 : ℝ) / 4) = (1 / 2) ^ (2 : ℝ) := by
    rw [Real.rpow_two]; norm_num
  rw [show ((1 : ℝ) - 1 / 4 * (2 : Nat)) = 1 / 2 by norm_num, e, ← Real.rpow_mul (by norm_num)]
  norm_num

theorem gap : startGap (1 / 4 * ((2 : Nat) : ℝ)) (1 / 2) (1 / 2) ≤ 3 / 2 := by
  have hl := Real.log_two_lt_d9
  unfold startGap
  rw [show (1 : ℝ) - 1 / 2 = 2⁻¹ by norm_num, Real.log_inv]
  refine max_le (max_le ?_ ?_) ?_
  · linarith
  · linarith
  · rw [div_le_iff₀ (by norm_num)]
    norm_num
    linarith

/-- There is an equilibrium. -/
theorem equilibrium : ∃ q : Scores Nat Nat Nat, (∀ s ∈ allSources triples, 0 ≤ q.1 s ∧ q.1 s < 1) ∧ Balanced triples none 0 (1 / 4) q := by
  obtain ⟨q, h1, -, h2, -⟩ := C113_converges (f := none) triples (by simp [triples]) false (datasetOf triples (finImp none))
    ((mk'_ok_iff triples ex_one_ne_zero false (finImp none) _).2 ⟨rfl, .inr (by simp [NoRepeats, triples]), by simp [optImpBad, finImp]⟩)
    (by norm_num : (0 : ℝ) ≤ 1 / 4) (amplification_none perClaim (by norm_num)) (by norm_num)
  exact ⟨q, h1, h2⟩

/-- In doubles, with dampening 1/4, initial trust 1/2 and threshold 1/1000 (L_INF), TruthFinder returns scores within
0.005 of the equilibrium. -/
example (clock : Nat → FP (Rounding.binary64 ω)) : ∃ (d : Dataset Nat Nat Nat (FP (Rounding.binary64 ω))) (r : Result Nat Nat Nat (FP (Rounding.binary64 ω)))
    (q : Scores Nat Nat Nat), Dataset.mk' triples false none = .ok d ∧
    (∀ s ∈ allSources triples, 0 ≤ q.1 s ∧ q.1 s < 1) ∧ Balanced triples none 0 (1 / 4) q ∧
    AlgCfg.run ⟨.truthFinder (Arith.lit 1 2) (FP.fin (1 / 4)) (FP.fin (1 / 2)), .conv (some .lInf) (FP.fin (1 / 1000)) 50, none⟩ d 51 clock {} = .ok r ∧
    AbsClose triples r q (5 / 1000) := by
  have hd := (mk'_ok_iff triples (one_ne_zero_fp (R := .binary64 ω)) false none _).2
    ⟨rfl, .inr (by simp [NoRepeats, triples]), by simp [optImpBad]⟩
  have hdbl : IsDouble (1 / 2) := ⟨1, -1, by norm_num, by norm_num, by norm_num, by norm_num⟩
  have c3 : (allSources triples).card = 3 := by decide
  obtain ⟨q, q1, q2⟩ := equilibrium
  obtain ⟨r, -, h1, -⟩ := C114_settles triples (by simp [triples]) _ _ hd (by decide) (by decide) perSource perClaim (Arith.lit 1 2) (1 / 4) (by norm_num)
    (by norm_num) (1 / 2) hdbl (by norm_num) (δ := 1 / 4) (by norm_num) (by norm_num) (by norm_num) root _ rfl (by norm_num) .lInf (by simp) (1 / 1000) 20
    (by
      unfold haze
      rw [c3]
      refine (mul_le_mul_of_nonneg_left (mul_le_mul_of_nonneg_left gap (by positivity)) (by positivity)).trans_lt ?_
      norm_num) (by simp) 50 (by norm_num) none 51 (by norm_num) clock {}
  have k := C116_double triples (by simp [triples]) _ _ hd (by decide) (by decide) perSource perClaim (Arith.lit 1 2) (1 / 4) (by norm_num)
    (by norm_num) (1 / 2) hdbl (by norm_num) (δ := 1 / 4) (by norm_num) (by norm_num) (by norm_num) root _ rfl (by norm_num) .lInf (by simp) (1 / 1000) 50
    none q q1 q2 51 clock {} r h1
  have hle : 1 / 4 * ((2 : Nat) : ℝ) / (1 - 1 / 4 * ((2 : Nat) : ℝ)) * (1 / 1000 + haze .lInf triples ((((2 : Nat) : ℝ) + ((2 : Nat) : ℝ) + 23) /
      (2 ^ 50 * (1 / 4) * (1 - 1 / 4 * ((2 : Nat) : ℝ))))) / (1 / 4) + (((2 : Nat) : ℝ) + ((2 : Nat) : ℝ) + 23) /
      (2 ^ 50 * (1 / 4) * (1 - 1 / 4 * ((2 : Nat) : ℝ))) ≤ 5 / 1000 := by
    unfold haze
    rw [c3]
    norm_num
  refine ⟨_, r, q, hd, q1, q2, h1, fun s hs => ?_, fun c hc => ?_⟩
  · obtain ⟨y, y1, y2⟩ := k.1 s hs
    exact ⟨y, y1, y2.trans hle⟩
  · obtain ⟨y, y1, y2⟩ := k.2 c hc
    exact ⟨y, y1, y2.trans hle⟩

/-- In exact arithmetic, with dampening 1/4, initial trust 1/2 and threshold 1/1000: the scores returned are within 0.008 of the equilibrium. -/
example (clock : Nat → Ex) : ∃ (d : Dataset Nat Nat Nat Ex) (r : Result Nat Nat Nat Ex) (q : Scores Nat Nat Nat),
    Dataset.mk' triples false (finImp none) = .ok d ∧ Balanced triples none 0 (1 / 4) q ∧
    AlgCfg.run ⟨.truthFinder (fin 0) (fin (1 / 4)) (fin (1 / 2)), .conv (some .lInf) (fin (1 / 1000)) 50, none⟩ d 51 clock {} = .ok r ∧
    ∀ s ∈ allSources triples, ∃ y : ℝ, TrustIn r s y ∧ |y - q.1 s| ≤ 8 / 1000 := by
  have hd := (mk'_ok_iff triples ex_one_ne_zero false (finImp none) _).2 ⟨rfl, .inr (by simp [NoRepeats, triples]), by simp [optImpBad, finImp]⟩
  have c3 : (allSources triples).card = 3 := by decide
  have amp := amplification_none (l := triples) perClaim (by norm_num : (0 : ℝ) ≤ 1 / 4)
  obtain ⟨q, q1, q2⟩ := equilibrium
  obtain ⟨r, h1, -⟩ := C113_settles (f := none) triples (by simp [triples]) false _ hd (rho := 0) (gamma := 1 / 4) (by norm_num) amp (by norm_num)
    (t := 1 / 2) (th := 1 / 1000) (by norm_num) (by norm_num) .lInf (by simp) none 20
    (by
      rw [c3]
      refine (mul_le_mul_of_nonneg_left (mul_le_mul_of_nonneg_left gap (by positivity)) (by positivity)).trans_lt ?_
      norm_num) 50 51 clock {} (by norm_num) (by norm_num)
  have k := (C116_exact (f := none) triples false _ hd (by norm_num) amp (by norm_num) (by norm_num) (by norm_num) .lInf (by simp) 50 none q q1 q2 51
    clock {} r h1).1
  have he : Real.exp (startGap (1 / 4 * ((2 : Nat) : ℝ)) (1 / 2) (1 / 2)) ≤ 8 := by
    refine (Real.exp_le_exp.2 (gap.trans (by norm_num : (3 : ℝ) / 2 ≤ ((2 : Nat) : ℝ) * 1))).trans ?_
    rw [Real.exp_nat_mul]
    refine (pow_le_pow_left₀ (Real.exp_pos _).le (Real.exp_one_lt_d9.le.trans (by norm_num : _ ≤ (2.8 : ℝ))) 2).trans ?_
    norm_num
  refine ⟨_, r, q, hd, q2, h1, fun s hs => ?_⟩
  obtain ⟨y, y1, y2⟩ := k s hs
  refine ⟨y, y1, y2.trans ?_⟩
  have e : 1 / 4 * ((2 : Nat) : ℝ) / (1 - 1 / 4 * ((2 : Nat) : ℝ)) = 1 := by norm_num
  rw [e]
  linarith

end Equilibrium

end TD
