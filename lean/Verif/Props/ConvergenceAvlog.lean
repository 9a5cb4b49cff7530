import Verif.Props.Convergence
import Verif.Props.Part
/-!
# C71: AverageLog converges, on every dataset with a source of two claims

Exact arithmetic.  Same argument as for Sums: the update of the belief vector is
multiplication by the positive semidefinite matrix `AᵀDA`, `D` the diagonal matrix of weights
`log n / n`.
-/

namespace TD
open Spec Ex Filter Topology
attribute [-instance] instBEqProd

variable {S V X : Type} [DecidableEq S] [DecidableEq V] [DecidableEq X] {l : List (S × V × X)}

/-- AverageLog without normalisation. -/
noncomputable def wStep (l : List (S × V × X)) (p : Scores S V X) : Scores S V X :=
  (avT l p.2, sumBelief l (avT l p.2))

/-- Its iterates. -/
noncomputable def wIter (l : List (S × V × X)) (prior : V × X → ℝ) (k : Nat) : Scores S V X :=
  (wStep l)^[k] ((fun _ => 0), prior)

theorem wIter_succ (prior : V × X → ℝ) (k : Nat) : wIter l prior (k + 1) = wStep l (wIter l prior k) := by
  unfold wIter; rw [Function.iterate_succ_apply']

theorem wIter_inv {prior : V × X → ℝ} (hp : ∀ c ∈ claims l, 0 < prior c) (k : Nat) : AvInv l (wIter l prior k) := by
  induction k with
  | zero => exact ⟨fun c hc => (hp c hc).le, fun s _ c hc => hp c (mem_claims_of_claimsOf l hc)⟩
  | succ k ih =>
    rw [wIter_succ]
    exact ⟨fun c _ => Finset.sum_nonneg fun r hr => avT_nonneg ih.1 (mem_sources_of_sourcesOf l hr),
      fun s hs c hc => avB_pos ih hs hc⟩

theorem avT_smul (b : ℝ) (q : V × X → ℝ) : avT l (fun c => b * q c) = fun s => b * avT l q s := by
  funext s
  unfold avT sumTrust
  rw [← Finset.mul_sum]
  ring

/-- AverageLog is the unnormalised iteration, normalised at the end. -/
theorem avlog_eq_wIter (hm : ∃ s, Multi l s) {prior : V × X → ℝ} (hp : ∀ c ∈ claims l, 0 < prior c) (k : Nat) :
    (avlogStep l)^[k + 1] ((fun _ => 0), prior) = normBoth l (wIter l prior (k + 1)) ∧
    ∃ b : ℝ, 0 < b ∧ ((avlogStep l)^[k] ((fun _ => 0), prior)).2 = fun c => b * (wIter l prior k).2 c := by
  have step : ∀ (p q : Scores S V X) (b : ℝ), 0 < b → p.2 = (fun c => b * q.2 c) →
      avlogStep l p = normBoth l (wStep l q) := by
    intro p q b hb e
    show normBoth l (avT l p.2, sumBelief l (avT l p.2)) = _
    rw [e, avT_smul, sumBelief_smul]
    exact normBoth_smul (l := l) (wStep l q) hb hb
  induction k with
  | zero =>
    have h0 : ((avlogStep l)^[0] ((fun _ => (0 : ℝ)), prior)).2 = fun c => 1 * (wIter l prior 0).2 c := by
      funext c; simp [wIter]
    refine ⟨?_, 1, one_pos, h0⟩
    rw [Function.iterate_succ_apply', wIter_succ]
    exact step _ _ 1 one_pos h0
  | succ k ih =>
    have htop : 0 < top (allClaims l) (wIter l prior (k + 1)).2 := by
      rw [wIter_succ]; exact (avlog_top hm (wIter_inv hp k)).2
    have h1 : ((avlogStep l)^[k + 1] ((fun _ => (0 : ℝ)), prior)).2 =
        fun c => (top (allClaims l) (wIter l prior (k + 1)).2)⁻¹ * (wIter l prior (k + 1)).2 c := by
      rw [ih.1]
      funext c
      simp only [normBoth, scaled]
      rw [div_eq_inv_mul]
    refine ⟨?_, _, inv_pos.2 htop, h1⟩
    rw [Function.iterate_succ_apply', wIter_succ]
    exact step _ _ _ (inv_pos.2 htop) h1

/-- The weight of a source. -/
noncomputable def weight (l : List (S × V × X)) (s : S) : ℝ := Real.log (nClaims l s) / nClaims l s

theorem weight_nonneg {s : S} (hs : s ∈ sources l) : 0 ≤ weight l s := by
  have h1 : 1 ≤ nClaims l s := by
    have := (claimsOf_nonempty l hs).card_pos
    unfold nClaims; exact_mod_cast this
  exact div_nonneg (Real.log_nonneg h1) (by linarith)

/-- `√D A`. -/
noncomputable def wMat (l : List (S × V × X)) : Matrix {s // s ∈ allSources l} {c // c ∈ allClaims l} ℝ :=
  fun s c => Real.sqrt (weight l s.1) * scMat l s c

theorem wMat_step (b : V × X → ℝ) (c : {c // c ∈ allClaims l}) :
    ((wMat l).conjTranspose * wMat l).mulVec (fun c => b c.1) c = sumBelief l (avT l b) c.1 := by
  rw [← Matrix.mulVec_mulVec]
  have h1 : (wMat l).mulVec (fun c => b c.1) = fun s => Real.sqrt (weight l s.1) * sumTrust l b s.1 := by
    funext s
    rw [← scMat_mulVec]
    simp only [Matrix.mulVec, dotProduct, wMat, Finset.mul_sum]
    exact Finset.sum_congr rfl fun c _ => by ring
  rw [h1]
  have h2 : (wMat l).conjTranspose.mulVec (fun s => Real.sqrt (weight l s.1) * sumTrust l b s.1) c =
      (scMat l).conjTranspose.mulVec (fun s => avT l b s.1) c := by
    simp only [Matrix.mulVec, dotProduct, wMat, Matrix.conjTranspose_apply]
    refine Finset.sum_congr rfl fun s _ => ?_
    have hw := Real.mul_self_sqrt (weight_nonneg ((mem_allSources l).1 s.2))
    simp only [star_trivial]
    have : avT l b s.1 = weight l s.1 * sumTrust l b s.1 := rfl
    rw [this]
    linear_combination (scMat l s c * sumTrust l b s.1) * hw
  rw [h2, scMatT_mulVec]

theorem wIter_powers (prior : V × X → ℝ) :
    ∃ (lam : {c // c ∈ allClaims l} → ℝ) (C : {c // c ∈ allClaims l} → {c // c ∈ allClaims l} → ℝ),
      (∀ j, 0 ≤ lam j) ∧ ∀ (k : Nat) (c : {c // c ∈ allClaims l}),
        (wIter l prior k).2 c.1 = ∑ j, C j c * lam j ^ k := by
  obtain ⟨lam, C, h1, h2⟩ := Spectral.iterate_eq
    (Matrix.posSemidef_conjTranspose_mul_self (wMat l)) (fun c => prior c.1)
  refine ⟨lam, C, h1, ?_⟩
  intro k c
  rw [← h2 k c]
  have : (fun c : {c // c ∈ allClaims l} => (wIter l prior k).2 c.1) =
      (fun w => ((wMat l).conjTranspose * wMat l).mulVec w)^[k] (fun c => prior c.1) := by
    induction k with
    | zero => rfl
    | succ k ih =>
      rw [Function.iterate_succ_apply', ← ih]
      funext c
      rw [wMat_step, wIter_succ]
      rfl
  exact congrFun this c

theorem scaled_pow {A : Type} (F : Finset A) (u : A → ℝ) {mu : ℝ} (hmu : 0 < mu) (k : Nat) (a : A) :
    scaled F u a = scaled F (fun a => u a / mu ^ k) a := by
  have := scaled_smul F u (r := (mu ^ k)⁻¹) (inv_pos.2 (pow_pos hmu k))
  rw [← this]
  simp only [div_eq_inv_mul]

/-- The iterates of AverageLog without normalisation, divided by the powers of a suitable number, converge; hence so do
those of AverageLog. -/
theorem avlog_growth (hm : ∃ s, Multi l s) {prior : V × X → ℝ} (hp : ∀ c ∈ claims l, 0 < prior c) :
    ∃ (mu : ℝ) (L : V × X → ℝ), 0 < mu ∧ (∀ c ∈ allClaims l, 0 ≤ L c) ∧ 0 < top (allSources l) (avT l L) ∧
      0 < top (allClaims l) L ∧ (∀ c ∈ allClaims l, sumBelief l (avT l L) c = mu * L c) ∧
      (∀ s ∈ allSources l, Tendsto (fun k => ((avlogStep l)^[k] ((fun _ => 0), prior)).1 s) atTop
        (𝓝 (scaled (allSources l) (avT l L) s))) ∧
      (∀ c ∈ allClaims l, Tendsto (fun k => ((avlogStep l)^[k] ((fun _ => 0), prior)).2 c) atTop
        (𝓝 (scaled (allClaims l) L c))) := by
  classical
  have hm1 := hm
  obtain ⟨sm, hsm⟩ := hm
  have hsS := multi_mem hsm
  obtain ⟨cm, hcm⟩ := claimsOf_nonempty l hsS
  obtain ⟨lam, C, h1, h2⟩ := wIter_powers (l := l) prior
  rcases Spectral.dominant lam h1 C with hz | ⟨mu, hmu, B, ⟨c0, hc0⟩, hB⟩
  · exfalso
    have := (wIter_inv hp 1).2 sm hsm cm hcm
    rw [h2 1 ⟨cm, (mem_allClaims l).2 (mem_claims_of_claimsOf l hcm)⟩, hz 1 le_rfl] at this
    exact lt_irrefl _ this
  · let L : V × X → ℝ := fun c => if h : c ∈ allClaims l then B ⟨c, h⟩ else 0
    have hL : ∀ c ∈ allClaims l, Tendsto (fun k : Nat => (wIter l prior k).2 c / mu ^ k) atTop (𝓝 (L c)) := by
      intro c hc
      simp only [L, hc, dite_true]
      have := hB ⟨c, hc⟩
      simpa only [h2 _ ⟨c, hc⟩] using this
    have hL0 : ∀ c ∈ allClaims l, 0 ≤ L c := by
      intro c hc
      refine ge_of_tendsto' (hL c hc) fun k => ?_
      exact div_nonneg ((wIter_inv hp k).1 c ((mem_allClaims l).1 hc)) (pow_pos hmu k).le
    have hLc0 : 0 < L c0.1 := by
      have : L c0.1 = B c0 := by simp [L]
      rcases (hL0 c0.1 c0.2).lt_or_eq with h | h
      · exact h
      · exact absurd (this ▸ h.symm) hc0
    have htopC : 0 < top (allClaims l) L := top_pos c0.2 hLc0
    -- trust
    have hT : ∀ s ∈ allSources l, Tendsto (fun k : Nat => (wIter l prior (k + 1)).1 s / mu ^ k) atTop
        (𝓝 (avT l L s)) := by
      intro s _
      have e : ∀ k : Nat, (wIter l prior (k + 1)).1 s / mu ^ k =
          weight l s * ∑ c ∈ claimsOf l s, (wIter l prior k).2 c / mu ^ k := by
        intro k
        rw [← Finset.sum_div, wIter_succ, ← mul_div_assoc]; rfl
      simp only [e]
      exact (tendsto_finsetSum _ fun c hc =>
        hL c ((mem_allClaims l).2 (mem_claims_of_claimsOf l hc))).const_mul _
    have hT0 : ∀ s ∈ allSources l, 0 ≤ avT l L s := fun s hs =>
      avT_nonneg (fun c hc => hL0 c ((mem_allClaims l).2 hc)) ((mem_allSources l).1 hs)
    have heig : ∀ c ∈ allClaims l, sumBelief l (avT l L) c = mu * L c := by
      intro c hc
      have e1 : Tendsto (fun k : Nat => (wIter l prior (k + 1)).2 c / mu ^ k) atTop (𝓝 (sumBelief l (avT l L) c)) := by
        have e : ∀ k : Nat, (wIter l prior (k + 1)).2 c / mu ^ k =
            ∑ s ∈ sourcesOf l c, (wIter l prior (k + 1)).1 s / mu ^ k := by
          intro k
          rw [← Finset.sum_div, wIter_succ]; rfl
        simp only [e]
        exact tendsto_finsetSum (sourcesOf l c) fun s hs =>
          hT s ((mem_allSources l).2 (mem_sources_of_sourcesOf l hs))
      have e2 : Tendsto (fun k : Nat => (wIter l prior (k + 1)).2 c / mu ^ k) atTop (𝓝 (L c * mu)) := by
        have := ((tendsto_add_atTop_iff_nat 1).2 (hL c hc)).mul_const mu
        refine this.congr fun k => ?_
        rw [pow_succ]
        field_simp
      rw [tendsto_nhds_unique e1 e2, mul_comm]
    have htopS : 0 < top (allSources l) (avT l L) := by
      by_contra hcon
      have hall : ∀ s ∈ allSources l, avT l L s = 0 := fun s hs =>
        le_antisymm ((le_top hs).trans (not_lt.1 hcon)) (hT0 s hs)
      have := heig c0.1 c0.2
      rw [sumBelief, Finset.sum_eq_zero fun s hs => hall s ((mem_allSources l).2 (mem_sources_of_sourcesOf l hs))] at this
      have := mul_pos hmu hLc0
      linarith
    refine ⟨mu, L, hmu, hL0, htopS, htopC, heig, ?_, ?_⟩
    · intro s hs
      rw [← tendsto_add_atTop_iff_nat 1]
      have e : ∀ k : Nat, ((avlogStep l)^[k + 1] ((fun _ => (0 : ℝ)), prior)).1 s =
          (wIter l prior (k + 1)).1 s / mu ^ k /
            top (allSources l) (fun s => (wIter l prior (k + 1)).1 s / mu ^ k) := by
        intro k
        rw [(avlog_eq_wIter hm1 hp k).1]
        exact scaled_pow _ _ hmu k s
      simp only [e]
      exact (hT s hs).div (tendsto_top hT) htopS.ne'
    · intro c hc
      rw [← tendsto_add_atTop_iff_nat 1]
      have e : ∀ k : Nat, ((avlogStep l)^[k + 1] ((fun _ => (0 : ℝ)), prior)).2 c =
          (wIter l prior (k + 1)).2 c / mu ^ (k + 1) /
            top (allClaims l) (fun c => (wIter l prior (k + 1)).2 c / mu ^ (k + 1)) := by
        intro k
        rw [(avlog_eq_wIter hm1 hp k).1]
        exact scaled_pow _ _ hmu (k + 1) c
      simp only [e]
      have h := fun c hc => (tendsto_add_atTop_iff_nat 1).2 (hL c hc)
      exact (h c hc).div (tendsto_top h) htopC.ne'

theorem avlog_limit (hm : ∃ s, Multi l s) {prior : V × X → ℝ} (hp : ∀ c ∈ claims l, 0 < prior c) :
    ∃ q : Scores S V X, (∃ s ∈ allSources l, q.1 s = 1) ∧ (∃ c ∈ allClaims l, q.2 c = 1) ∧
      (∀ s ∈ allSources l, Tendsto (fun k => ((avlogStep l)^[k] ((fun _ => 0), prior)).1 s) atTop
        (𝓝 (q.1 s))) ∧
      (∀ c ∈ allClaims l, Tendsto (fun k => ((avlogStep l)^[k] ((fun _ => 0), prior)).2 c) atTop
        (𝓝 (q.2 c))) := by
  obtain ⟨mu, L, -, -, hS, hC, -, h1, h2⟩ := avlog_growth hm hp
  have hl : l ≠ [] := by
    rintro rfl
    obtain ⟨s, hs⟩ := hm
    simpa [sources, firsts, firstsBy] using multi_mem hs
  exact ⟨(scaled (allSources l) (avT l L), scaled (allClaims l) L), scaled_max (allSources_nonempty hl) hS,
    scaled_max (allClaims_nonempty hl) hC, h1, h2⟩

/-- **C71.** The scores computed by AverageLog converge on every dataset in which some source
makes two claims (otherwise they are NaN, C32), to scores of which the largest are 1. -/
theorem C71_converges (l : List (S × V × X)) (hm : ∃ s, 2 ≤ (claimsOf l s).card) (p : Prior) :
    ∃ q : Scores S V X,
      (∀ s ∈ allSources l, Tendsto (fun k => ((avlogStep l)^[k] ((fun _ => 0), priorOf l p)).1 s) atTop
        (𝓝 (q.1 s))) ∧
      (∀ c ∈ allClaims l, Tendsto (fun k => ((avlogStep l)^[k] ((fun _ => 0), priorOf l p)).2 c) atTop
        (𝓝 (q.2 c))) ∧
      (∃ s ∈ allSources l, q.1 s = 1) ∧ (∃ c ∈ allClaims l, q.2 c = 1) := by
  obtain ⟨q, h1, h2, h3, h4⟩ := avlog_limit hm (prior := priorOf l p) (fun c hc => priorOf_pos p hc)
  exact ⟨q, h3, h4, h1, h2⟩

/-- A run with a `ConvergenceIterator` succeeds as soon as a compared distance is below the threshold. -/
theorem run_first_of_lt {k : Kind Ex} (hk : k ≠ .unboundedSums) {pr : Option Prior}
    {f : Option (V → X → X → Option Ex)} {init : Scores S V X} {step : Scores S V X → Scores S V X}
    {cmp : Scores S V X → (S → ℝ) × (S → ℝ)} {Inv : Scores S V X → Prop} {m : Measure} {th : ℝ}
    (hl : l ≠ []) (H : ∀ limit, Implements ⟨k, .conv (some m) (fin th) limit, pr⟩ l f init step cmp Inv)
    {N : Nat} (hN : distance m (allSources l) (cmp (step^[N] init)).1 (cmp (step^[N] init)).2 < th)
    (limit : Int) (fuel : Nat) (clock : Nat → Ex) (st : IterState Ex) (hlim' : ((N + 1 : Nat) : Int) ≤ limit)
    (hfuel' : N + 1 < fuel) :
    ∃ r, (⟨k, .conv (some m) (fin th) limit, pr⟩ : AlgCfg Ex).run (datasetOf l f) fuel clock st = .ok r ∧
      ∃ n ≤ N, r.iterations = some (n + 1) := by
  obtain ⟨n, hn, hbef⟩ := exists_first (P := fun n => distance m (allSources l) (cmp (step^[n] init)).1 (cmp (step^[n] init)).2 < th)
    ⟨N, hN⟩
  have hnN : n ≤ N := by
    by_contra h
    exact hbef N (by omega) hN
  have hlim : ((n + 1 : Nat) : Int) ≤ limit := by omega
  have hfuel : n + 1 < fuel := by omega
  have H := H limit
  obtain ⟨D, hD⟩ : ∃ D : Nat → ℝ, ∀ n, D n =
      distance m (allSources l) (cmp (step^[n] init)).1 (cmp (step^[n] init)).2 := ⟨_, fun _ => rfl⟩
  simp only [← hD] at hn hbef
  have ht : Implements.Traj ⟨k, .conv (some m) (fin th) limit, pr⟩ l init step cmp
      (fun k => ⟨k, if k = 0 then none else some (fin (D (k - 1))), 0⟩) := by
    refine ⟨rfl, ?_⟩
    intro j
    have hg := getDistance_eq (nodup_sources l) (sources_ne hl) m (cmp (step^[j] init)).1 (cmp (step^[j] init)).2
    rw [sources_toFinset, ← hD] at hg
    simp only [IterCfg.compare]
    unfold repS
    rw [hg]
    rfl
  have hfin : ∀ t b, (⟨k, .conv (some m) (fin th) limit, pr⟩ : AlgCfg Ex).finish t b = .ok (t, b) :=
    fun t b => by
      unfold AlgCfg.finish
      cases k <;> simp_all
  obtain ⟨r, hr, hit, -⟩ := H.exec_of_traj ht hl st (n := n + 1) hfuel
    (by
      simp only [IterCfg.finished, IterState.below, Nat.add_sub_cancel, Nat.succ_ne_zero, ↓reduceIte,
        lt_eq, hn, decide_true])
    (by
      intro i hi
      have hlt : ¬ ((i : Nat) : Int) ≥ limit := by omega
      cases i with
      | zero =>
        simp only [IterCfg.finished, IterState.below, ↓reduceIte, Bool.false_eq_true, hlt]
      | succ i =>
        have := hbef i (by omega)
        simp only [IterCfg.finished, IterState.below, Nat.add_sub_cancel, Nat.succ_ne_zero, ↓reduceIte,
          lt_eq, this, decide_false, Bool.false_eq_true, hlt])
    (hfin _ _)
  rw [run_eq, hr]
  exact ⟨_, rfl, n, hnN, by simp [resultOf, hit]⟩

theorem run_succeeds_of_lt {k : Kind Ex} (hk : k ≠ .unboundedSums) {pr : Option Prior}
    {f : Option (V → X → X → Option Ex)} {init : Scores S V X} {step : Scores S V X → Scores S V X}
    {cmp : Scores S V X → (S → ℝ) × (S → ℝ)} {Inv : Scores S V X → Prop} {m : Measure} {th : ℝ}
    (hl : l ≠ []) (H : ∀ limit, Implements ⟨k, .conv (some m) (fin th) limit, pr⟩ l f init step cmp Inv)
    {N : Nat} (hN : distance m (allSources l) (cmp (step^[N] init)).1 (cmp (step^[N] init)).2 < th)
    (limit : Int) (fuel : Nat) (clock : Nat → Ex) (st : IterState Ex) (hlim' : ((N + 1 : Nat) : Int) ≤ limit)
    (hfuel' : N + 1 < fuel) :
    ∃ r, (⟨k, .conv (some m) (fin th) limit, pr⟩ : AlgCfg Ex).run (datasetOf l f) fuel clock st = .ok r ∧
      ∃ n, r.iterations = some n ∧ n ≤ N + 1 := by
  obtain ⟨r, hr, n, hn, e⟩ := run_first_of_lt hk hl H hN limit fuel clock st hlim' hfuel'
  exact ⟨r, hr, n + 1, e, by omega⟩

/-- A run with a `ConvergenceIterator` succeeds if the compared distances tend to zero. -/
theorem run_succeeds_of_tendsto {k : Kind Ex} (hk : k ≠ .unboundedSums) {pr : Option Prior}
    {f : Option (V → X → X → Option Ex)} {init : Scores S V X} {step : Scores S V X → Scores S V X}
    {cmp : Scores S V X → (S → ℝ) × (S → ℝ)} {Inv : Scores S V X → Prop} {m : Measure} {th : ℝ} (hth : 0 < th)
    (hl : l ≠ []) (H : ∀ limit, Implements ⟨k, .conv (some m) (fin th) limit, pr⟩ l f init step cmp Inv)
    (hdist : Tendsto (fun n => distance m (allSources l) (cmp (step^[n] init)).1 (cmp (step^[n] init)).2) atTop (𝓝 0)) :
    ∃ N : Nat, ∀ (limit : Int) (fuel : Nat) (clock : Nat → Ex) (st : IterState Ex),
      (N : Int) ≤ limit → N < fuel →
      ∃ r, (⟨k, .conv (some m) (fin th) limit, pr⟩ : AlgCfg Ex).run (datasetOf l f) fuel clock st = .ok r ∧
        ∃ n, r.iterations = some n ∧ n ≤ N := by
  obtain ⟨n, hn⟩ := (hdist.eventually_lt_const hth).exists
  exact ⟨n + 1, fun limit fuel clock st h1 h2 => run_succeeds_of_lt hk hl H hn limit fuel clock st h1 h2⟩

/-- **C71.** Hence AverageLog with a `ConvergenceIterator` of any measure and any positive
threshold succeeds, if the limit is large enough for the dataset. -/
theorem C71_run_succeeds (l : List (S × V × X)) (am : Bool) (f : Option (V → X → X → Option Ex))
    (d : Dataset S V X Ex) (h : Dataset.mk' l am f = .ok d) (hm : ∃ s, 2 ≤ (claimsOf l s).card) (p : Prior)
    (m : Measure) (th : ℝ) (hth : 0 < th) :
    ∃ N : Nat, ∀ (limit : Int) (fuel : Nat) (clock : Nat → Ex) (st : IterState Ex),
      (N : Int) ≤ limit → N < fuel →
      ∃ r, (⟨.averageLog, .conv (some m) (fin th) limit, some p⟩ : AlgCfg Ex).run d fuel clock st = .ok r ∧
        ∃ k, r.iterations = some k ∧ k ≤ N := by
  obtain rfl := mk'_ex h
  obtain ⟨q, ⟨s1, hs1, e1⟩, -, h3, -⟩ :=
    avlog_limit hm (prior := priorOf l p) (fun c hc => priorOf_pos p hc)
  have hl : l ≠ [] := by
    rintro rfl
    simp [allSources, recorded, firstsBy] at hs1
  refine run_succeeds_of_tendsto (by simp) hth hl (fun limit => avlog_implements f _ p hm) ?_
  refine tendsto_distance ⟨s1, hs1⟩ (fun a ha => ?_) h3 ⟨s1, hs1, by rw [e1]; exact one_ne_zero⟩ m
  have := (tendsto_add_atTop_iff_nat 1).2 (h3 a ha)
  simpa only [Function.iterate_succ_apply'] using this

/-- A dataset that meets the hypotheses. -/
example : ∃ d : Dataset Nat Nat Nat Ex, Dataset.mk' twoParts false none = .ok d ∧
    ∃ s, 2 ≤ (claimsOf twoParts s).card := by
  obtain ⟨d, hd⟩ := exists_dataset twoParts (by decide)
  exact ⟨d, hd, 2, by decide⟩

end TD
