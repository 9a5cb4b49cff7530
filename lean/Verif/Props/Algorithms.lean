import Verif.Lemmas.Algos2
import Verif.Lemmas.Build
import Mathlib.Algebra.BigOperators.Field
import Mathlib.Tactic.Linarith
/-!
# C28, C29, C30, C32–C36: the algorithms compute the published updates

Exact arithmetic (`Ex`): real numbers together with NaN and infinities, so that a
division by zero would not go unnoticed.  `l` are the triples a dataset is built
from, `Spec/Scores.lean` holds the formulas.
-/

namespace TD
open Spec Ex
attribute [-instance] instBEqProd

variable {S V X : Type} [DecidableEq S] [DecidableEq V] [DecidableEq X]

theorem ex_one_ne_zero : Arith.eq (Arith.ofNat 1 : Ex) (Arith.ofNat 0) = false := by simp

theorem mk'_ex {l : List (S × V × X)} {am : Bool} {f : Option (V → X → X → Option Ex)}
    {d : Dataset S V X Ex} (h : Dataset.mk' l am f = .ok d) : d = datasetOf l f :=
  ((mk'_ok_iff l ex_one_ne_zero am f d).1 h).1

/-- `Implements` for all iterators gives `Computes`. -/
theorem computes_of {k : Kind Ex} {it : IterCfg Ex} {pr : Option Prior} {l : List (S × V × X)}
    {f : Option (V → X → X → Option Ex)} {init : Scores S V X}
    {step : Scores S V X → Scores S V X} {cmp : Scores S V X → (S → ℝ) × (S → ℝ)}
    {Inv : Scores S V X → Prop} (hk : k ≠ .unboundedSums) (hl : l ≠ [])
    (H : ∀ it, Implements ⟨k, it, pr⟩ l f init step cmp Inv) :
    Computes ⟨k, it, pr⟩ (datasetOf l f) l init step := by
  refine ⟨?_, ?_, ?_⟩
  · intro fuel clock st r hr
    exact (H it).run_reports hk hr
  · intro fuel clock st rs hr
    rw [← show k.logsInit = startsWithInitial k by cases k <;> rfl]
    exact (H it).run_iter_reports hr
  · intro N fuel clock st hN
    exact (H (.fixed N)).run_fixed hk hl rfl hN clock st

theorem allScores_of {l : List (S × V × X)} {r : Result S V X Ex} {p : Scores S V X} {P : ℝ → Prop}
    (h : Reports l r p) (h1 : ∀ s ∈ sources l, P (p.1 s)) (h2 : ∀ c ∈ claims l, P (p.2 c)) :
    AllScores r P := by
  constructor
  · intro s x hx
    rw [h.1] at hx
    split at hx
    · rename_i hs
      exact ⟨_, (Option.some.inj hx).symm, h1 s ((mem_allSources l).1 hs)⟩
    · simp at hx
  · intro v x b hb
    rw [h.2] at hb
    split at hb
    · rename_i hs
      exact ⟨_, (Option.some.inj hb).symm, h2 _ ((mem_allClaims l).1 hs)⟩
    · simp at hb

/-! ### C28: prior beliefs -/

/-- **C28.** The prior beliefs, read through `get_belief_dict`, are the documented
ones for exactly the claims of the dataset. -/
theorem C28_priors (l : List (S × V × X)) (am : Bool) (f : Option (V → X → X → Option Ex))
    (d : Dataset S V X Ex) (h : Dataset.mk' l am f = .ok d) (p : Prior) :
    ∃ b D, priorBeliefs (some p) d.mats = .ok b ∧ d.beliefDict b = .ok D ∧
      ∀ v x, (D.get? v).bind (fun e => e.get? x) =
        if (v, x) ∈ allClaims l then some (fin (priorOf l p (v, x))) else none := by
  obtain rfl := mk'_ex h
  refine ⟨_, beliefOf (claims l) (repC l (priorOf l p)), priorBeliefs_rep f p, ?_, ?_⟩
  · rw [beliefDict_eq l f _ (by simp [repC])]
    simp [repC]
  · have := (reports_resultOf l ((fun _ => 0), priorOf l p) (fin 0) none).2
    simpa [resultOf, repC] using this

/-- **C28.** All priors are positive. -/
theorem C28_positive (l : List (S × V × X)) (p : Prior) (c : V × X) (hc : c ∈ allClaims l) :
    0 < priorOf l p c := priorOf_pos p ((mem_allClaims l).1 hc)

/-- **C28.** VOTED and UNIFORM priors sum to 1 over the claims of each variable. -/
theorem C28_sum_one (l : List (S × V × X)) (c : V × X) (hc : c ∈ allClaims l) :
    (∑ d ∈ rivals l c, priorVoted l d) = 1 ∧ (∑ d ∈ rivals l c, priorUniform l d) = 1 := by
  have hc' := (mem_allClaims l).1 hc
  have hriv : ∀ d ∈ rivals l c, rivals l d = rivals l c := by
    intro d hd
    have := ((mem_rivals l).1 hd).2
    ext e
    rw [mem_rivals, mem_rivals, this]
  constructor
  · have : ∑ d ∈ rivals l c, priorVoted l d =
        ∑ d ∈ rivals l c, nSources l d / ∑ e ∈ rivals l c, nSources l e := by
      apply Finset.sum_congr rfl
      intro d hd
      rw [priorVoted, hriv d hd]
    rw [this, ← Finset.sum_div, div_self (rivals_sum_pos hc').ne']
  · have : ∑ d ∈ rivals l c, priorUniform l d = ∑ d ∈ rivals l c, (1 : ℝ) / (rivals l c).card := by
      apply Finset.sum_congr rfl
      intro d hd
      rw [priorUniform, hriv d hd]
    rw [this, Finset.sum_const, nsmul_eq_mul, mul_one_div, div_self (rivals_card_pos hc').ne']

/-! ### C29: majority voting -/

/-- **C29.** Voting reports trust 1 for every source and for every claim its number
of sources divided by the largest such number. -/
theorem C29_voting (l : List (S × V × X)) (am : Bool) (f : Option (V → X → X → Option Ex))
    (d : Dataset S V X Ex) (h : Dataset.mk' l am f = .ok d) (hl : l ≠ []) (clock : Nat → Ex) :
    ∃ r, votingRun d clock = .ok r ∧ Reports l r (voting l) ∧ r.iterations = none := by
  obtain rfl := mk'_ex h
  have hm : (datasetOf l f).mats = matsOf l f := rfl
  have h0 : (matsOf l f).numClaims ≠ 0 := Implements.numClaims_ne hl
  have hmx : npMax (repC l (nSources l)) = .ok (fin (top (allClaims l) (nSources l))) := by
    have := Ex.npMax_eq (claims_ne hl) (nSources l)
    rwa [claims_toFinset] at this
  have htop : 0 < top (allClaims l) (nSources l) := topC_pos hl fun c hc => nSources_pos l hc
  have hb : (repC l (nSources l)).map (· /. fin (top (allClaims l) (nSources l))) =
      repC l (scaled (allClaims l) (nSources l)) := mapC fun c _ => div_eq _ htop.ne'
  have hones : (ones (matsOf l f).numSources : Vec Ex) = repS l fun _ => 1 := ones_sources l f
  have hsz : Sized (matsOf l f) (repS l (voting l).1) (repC l (voting l).2) :=
    ⟨by simp [repS, matsOf], by simp [repC, matsOf]⟩
  obtain ⟨e1, e2⟩ := labels_ok l f hsz
  refine ⟨resultOf l (repS l (voting l).1) (repC l (voting l).2) (clock 1 -. clock 0) none, ?_,
    reports_resultOf _ _ _ _, rfl⟩
  unfold votingRun
  simp only [hm, h0, ↓reduceIte, sourceCounts_rep, hmx, hones, hb, bind, Except.bind, pure, Except.pure]
  have e1' : (datasetOf l f).trustDict (repS l fun _ => 1) = _ := e1
  have e2' : (datasetOf l f).beliefDict (repC l (scaled (allClaims l) (nSources l))) = _ := e2
  rw [e1', e2']
  rfl

/-- **C29.** Beliefs are in `(0, 1]`, and some claim has belief exactly 1. -/
theorem C29_range (l : List (S × V × X)) (am : Bool) (f : Option (V → X → X → Option Ex))
    (d : Dataset S V X Ex) (h : Dataset.mk' l am f = .ok d) (hl : l ≠ []) (clock : Nat → Ex)
    (r : Result S V X Ex) (hr : votingRun d clock = .ok r) :
    AllScores r (fun y => 0 < y ∧ y ≤ 1) ∧ OneReached r := by
  obtain ⟨r', h1, h2, -⟩ := C29_voting l am f d h hl clock
  rw [hr] at h1
  obtain rfl := Except.ok.inj h1
  have htop : 0 < top (allClaims l) (nSources l) := topC_pos hl fun c hc => nSources_pos l hc
  refine ⟨allScores_of h2 (fun _ _ => ⟨one_pos, le_rfl⟩) ?_, ?_, ?_⟩
  · intro c hc
    exact ⟨scaled_pos ((mem_allClaims l).2 hc) (nSources_pos l hc),
      scaled_le_one ((mem_allClaims l).2 hc) htop⟩
  · obtain ⟨s, hs⟩ := allSources_nonempty hl
    exact ⟨s, by rw [h2.1, if_pos hs]; rfl⟩
  · obtain ⟨⟨v, x⟩, hc, e⟩ := scaled_max (allClaims_nonempty hl) htop
    exact ⟨v, x, by rw [h2.2, if_pos hc]; exact congrArg some (congrArg Ex.fin e)⟩

/-! ### C30: Sums -/

/-- **C30.** Sums computes the published update, from any prior. -/
theorem C30_sums (l : List (S × V × X)) (am : Bool) (f : Option (V → X → X → Option Ex))
    (d : Dataset S V X Ex) (h : Dataset.mk' l am f = .ok d) (hl : l ≠ []) (it : IterCfg Ex) (p : Prior) :
    Computes ⟨.sums, it, some p⟩ d l ((fun _ => 0), priorOf l p) (sumsStep l) := by
  obtain rfl := mk'_ex h
  exact computes_of (by simp) hl fun it => sums_implements f hl it p

theorem norm_range {l : List (S × V × X)} (hl : l ≠ []) {p : Scores S V X}
    (h1 : ∀ s ∈ sources l, 0 ≤ p.1 s) (h2 : ∀ c ∈ claims l, 0 ≤ p.2 c)
    (h3 : 0 < top (allSources l) p.1) (h4 : 0 < top (allClaims l) p.2) {r : Result S V X Ex}
    (h : Reports l r (normBoth l p)) : AllScores r (fun y => 0 ≤ y ∧ y ≤ 1) ∧ OneReached r := by
  refine ⟨allScores_of h ?_ ?_, ?_, ?_⟩
  · intro s hs
    exact ⟨scaled_nonneg ((mem_allSources l).2 hs) (h1 s hs), scaled_le_one ((mem_allSources l).2 hs) h3⟩
  · intro s hs
    exact ⟨scaled_nonneg ((mem_allClaims l).2 hs) (h2 s hs), scaled_le_one ((mem_allClaims l).2 hs) h4⟩
  · obtain ⟨s, hs, e⟩ := scaled_max (allSources_nonempty hl) h3
    exact ⟨s, by rw [h.1, if_pos hs]; exact congrArg some (congrArg Ex.fin e)⟩
  · obtain ⟨⟨v, x⟩, hc, e⟩ := scaled_max (allClaims_nonempty hl) h4
    exact ⟨v, x, by rw [h.2, if_pos hc]; exact congrArg some (congrArg Ex.fin e)⟩

/-- The last step of a positive number of iterations. -/
theorem iterate_last {A : Type} (step : A → A) (a : A) {k : Nat} (hk : 1 ≤ k) :
    step^[k] a = step (step^[k - 1] a) := by
  obtain ⟨j, rfl⟩ : ∃ j, k = j + 1 := ⟨k - 1, by omega⟩
  rw [Function.iterate_succ_apply']; rfl

/-! ### C32: AverageLog -/

/-- **C32.** If some source makes at least two claims, AverageLog computes the
published update. -/
theorem C32_average_log (l : List (S × V × X)) (am : Bool) (f : Option (V → X → X → Option Ex))
    (d : Dataset S V X Ex) (h : Dataset.mk' l am f = .ok d)
    (hm : ∃ s, 2 ≤ (claimsOf l s).card) (it : IterCfg Ex) (p : Prior) :
    Computes ⟨.averageLog, it, some p⟩ d l ((fun _ => 0), priorOf l p) (avlogStep l) := by
  obtain rfl := mk'_ex h
  have hl : l ≠ [] := by
    obtain ⟨s, hs⟩ := hm
    rintro rfl
    have := multi_mem (l := ([] : List (S × V × X))) hs
    simp [sources, firsts, firstsBy] at this
  exact computes_of (by simp) hl fun it => avlog_implements f it p hm

/-- **C32.** ... and after at least one iteration all scores are in `[0, 1]`, with
largest trust and largest belief 1. -/
theorem C32_range (l : List (S × V × X)) (am : Bool) (f : Option (V → X → X → Option Ex))
    (d : Dataset S V X Ex) (h : Dataset.mk' l am f = .ok d)
    (hm : ∃ s, 2 ≤ (claimsOf l s).card) (it : IterCfg Ex) (p : Prior) (fuel : Nat)
    (clock : Nat → Ex) (st : IterState Ex) (r : Result S V X Ex)
    (hr : (⟨.averageLog, it, some p⟩ : AlgCfg Ex).run d fuel clock st = .ok r)
    (k : Nat) (hk : r.iterations = some k) (hk1 : 1 ≤ k) :
    AllScores r (fun y => 0 ≤ y ∧ y ≤ 1) ∧ OneReached r := by
  obtain ⟨k', e, hrep⟩ := (C32_average_log l am f d h hm it p).1 fuel clock st r hr
  obtain rfl : k = k' := by rw [hk] at e; exact Option.some.inj e
  rw [iterate_last _ _ hk1] at hrep
  have hq := (avlog_implements f it p hm).inv_iterate (k - 1)
  obtain ⟨s, hs⟩ := hm
  have hs : Multi l s := hs
  have hsm := multi_mem hs
  have hl : l ≠ [] := by rintro rfl; simp [sources, firsts, firstsBy] at hsm
  obtain ⟨c, hc⟩ : (claimsOf l s).Nonempty := claimsOf_nonempty l hsm
  refine norm_range hl ?_ ?_ ?_ ?_ hrep
  · exact fun s hs => avT_nonneg hq.1 hs
  · exact fun c _ => Finset.sum_nonneg fun r hr => avT_nonneg hq.1 (mem_sources_of_sourcesOf l hr)
  · exact top_pos ((mem_allSources l).2 hsm) (avT_pos hq hs)
  · exact top_pos ((mem_allClaims l).2 (mem_claims_of_claimsOf l hc)) (avB_pos hq hs hc)

/-! ### C33, C34: Investment and PooledInvestment -/

/-- **C33.** Investment computes the published update; in particular no claim's
investment ever becomes zero, so it never finishes early. -/
theorem C33_investment (l : List (S × V × X)) (am : Bool) (f : Option (V → X → X → Option Ex))
    (d : Dataset S V X Ex) (h : Dataset.mk' l am f = .ok d) (hl : l ≠ []) (it : IterCfg Ex)
    (p : Prior) (g : ℝ) :
    Computes ⟨.investment (fin g), it, some p⟩ d l ((fun _ => 1), priorOf l p) (investStep l g) := by
  obtain rfl := mk'_ex h
  exact computes_of (by simp) hl fun it => invest_implements f hl it p g

/-- **C33.** After at least one iteration the scores are in `[0, 1]`, 1 is reached. -/
theorem C33_range (l : List (S × V × X)) (am : Bool) (f : Option (V → X → X → Option Ex))
    (d : Dataset S V X Ex) (h : Dataset.mk' l am f = .ok d) (hl : l ≠ []) (it : IterCfg Ex)
    (p : Prior) (g : ℝ) (fuel : Nat) (clock : Nat → Ex) (st : IterState Ex) (r : Result S V X Ex)
    (hr : (⟨.investment (fin g), it, some p⟩ : AlgCfg Ex).run d fuel clock st = .ok r)
    (k : Nat) (hk : r.iterations = some k) (hk1 : 1 ≤ k) :
    AllScores r (fun y => 0 ≤ y ∧ y ≤ 1) ∧ OneReached r := by
  obtain ⟨k', e, hrep⟩ := (C33_investment l am f d h hl it p g).1 fuel clock st r hr
  obtain rfl : k = k' := by rw [hk] at e; exact Option.some.inj e
  rw [iterate_last _ _ hk1] at hrep
  have hq := (invest_implements f hl it p g).inv_iterate (k - 1)
  have hr : ∀ s ∈ sources l, 0 < regained l _ s := fun s hs => regained_pos hq hs
  have hb : ∀ c ∈ claims l, 0 < invested l (regained l _) c ^ g :=
    fun c hc => Real.rpow_pos_of_pos (invested_pos hr hc) g
  exact norm_range hl (fun s hs => (hr s hs).le) (fun c hc => (hb c hc).le) (topS_pos hl hr)
    (topC_pos hl hb) hrep

/-- **C34.** PooledInvestment computes the published update. -/
theorem C34_pooled_investment (l : List (S × V × X)) (am : Bool) (f : Option (V → X → X → Option Ex))
    (d : Dataset S V X Ex) (h : Dataset.mk' l am f = .ok d) (hl : l ≠ []) (it : IterCfg Ex)
    (p : Prior) (g : ℝ) :
    Computes ⟨.pooledInvestment (fin g), it, some p⟩ d l ((fun _ => 1), priorOf l p)
      (pooledStep l g) := by
  obtain rfl := mk'_ex h
  exact computes_of (by simp) hl fun it => pooled_implements f hl it p g

/-- **C34.** After at least one iteration the scores are in `[0, 1]`, 1 is reached. -/
theorem C34_range (l : List (S × V × X)) (am : Bool) (f : Option (V → X → X → Option Ex))
    (d : Dataset S V X Ex) (h : Dataset.mk' l am f = .ok d) (hl : l ≠ []) (it : IterCfg Ex)
    (p : Prior) (g : ℝ) (fuel : Nat) (clock : Nat → Ex) (st : IterState Ex) (r : Result S V X Ex)
    (hr : (⟨.pooledInvestment (fin g), it, some p⟩ : AlgCfg Ex).run d fuel clock st = .ok r)
    (k : Nat) (hk : r.iterations = some k) (hk1 : 1 ≤ k) :
    AllScores r (fun y => 0 ≤ y ∧ y ≤ 1) ∧ OneReached r := by
  obtain ⟨k', e, hrep⟩ := (C34_pooled_investment l am f d h hl it p g).1 fuel clock st r hr
  obtain rfl : k = k' := by rw [hk] at e; exact Option.some.inj e
  rw [iterate_last _ _ hk1] at hrep
  have hq := (pooled_implements f hl it p g).inv_iterate (k - 1)
  have hr : ∀ s ∈ sources l, 0 < regained l _ s := fun s hs => regained_pos hq hs
  exact norm_range hl (fun s hs => (hr s hs).le) (fun c hc => (pooledB_pos hq g hc).le)
    (topS_pos hl hr) (topC_pos hl fun c hc => pooledB_pos hq g hc) hrep

/-! ### C35: TruthFinder -/

/-- **C35.** TruthFinder computes the published update, for finite implication
values and initial trust in `[0, 1)`; in particular no trust ever becomes 1, so it
never finishes early. -/
theorem C35_truth_finder (l : List (S × V × X)) (am : Bool) (f : Option (V → X → X → Option ℝ))
    (d : Dataset S V X Ex) (h : Dataset.mk' l am (finImp f) = .ok d) (hl : l ≠ []) (it : IterCfg Ex)
    (pr : Option Prior) (rho gamma t0 : ℝ) (h0 : 0 ≤ t0) (h1 : t0 < 1) :
    Computes ⟨.truthFinder (fin rho) (fin gamma) (fin t0), it, pr⟩ d l ((fun _ => t0), (fun _ => 0))
      (tfStep l (impVal f) rho gamma) := by
  obtain rfl := mk'_ex h
  exact computes_of (by simp) hl fun it => tf_implements f it pr rho gamma t0 h0 h1

/-- **C35.** After at least one iteration all trusts and beliefs are strictly
between 0 and 1. -/
theorem C35_range (l : List (S × V × X)) (am : Bool) (f : Option (V → X → X → Option ℝ))
    (d : Dataset S V X Ex) (h : Dataset.mk' l am (finImp f) = .ok d) (hl : l ≠ []) (it : IterCfg Ex)
    (pr : Option Prior) (rho gamma t0 : ℝ) (h0 : 0 ≤ t0) (h1 : t0 < 1)
    (fuel : Nat) (clock : Nat → Ex) (st : IterState Ex) (r : Result S V X Ex)
    (hr : (⟨.truthFinder (fin rho) (fin gamma) (fin t0), it, pr⟩ : AlgCfg Ex).run d fuel clock st = .ok r)
    (k : Nat) (hk : r.iterations = some k) (hk1 : 1 ≤ k) :
    AllScores r (fun y => 0 < y ∧ y < 1) := by
  obtain ⟨k', e, hrep⟩ := (C35_truth_finder l am f d h hl it pr rho gamma t0 h0 h1).1 fuel clock st r hr
  obtain rfl : k = k' := by rw [hk] at e; exact Option.some.inj e
  rw [iterate_last _ _ hk1] at hrep
  exact allScores_of hrep
    (fun s hs => mean_pos_lt (fun c _ => ⟨sigmoid_pos _, sigmoid_lt _⟩) hs)
    (fun c hc => ⟨sigmoid_pos _, sigmoid_lt _⟩)

/-- **C35.** Without implications (and with a non-negative dampening factor)
beliefs are at least 1/2. -/
theorem C35_half (l : List (S × V × X)) (am : Bool)
    (d : Dataset S V X Ex) (h : Dataset.mk' l am none = .ok d) (hl : l ≠ []) (it : IterCfg Ex)
    (pr : Option Prior) (rho gamma t0 : ℝ) (hg : 0 ≤ gamma) (h0 : 0 ≤ t0) (h1 : t0 < 1)
    (fuel : Nat) (clock : Nat → Ex) (st : IterState Ex) (r : Result S V X Ex)
    (hr : (⟨.truthFinder (fin rho) (fin gamma) (fin t0), it, pr⟩ : AlgCfg Ex).run d fuel clock st = .ok r)
    (k : Nat) (hk : r.iterations = some k) (hk1 : 1 ≤ k) (v : V) (x : X) (b : Ex)
    (hb : (r.belief.get? v).bind (fun d => d.get? x) = some b) : ∃ y, b = fin y ∧ 1 / 2 ≤ y := by
  have h' : Dataset.mk' l am (finImp (none : Option (V → X → X → Option ℝ))) = .ok d := h
  obtain ⟨k', e, hrep⟩ := (C35_truth_finder l am none d h' hl it pr rho gamma t0 h0 h1).1 fuel clock st r hr
  obtain rfl : k = k' := by rw [hk] at e; exact Option.some.inj e
  have hq := (tf_implements (l := l) none it pr rho gamma t0 h0 h1).inv_iterate (k - 1)
  rw [iterate_last _ _ hk1] at hrep
  rw [hrep.2] at hb
  split at hb
  · refine ⟨_, (Option.some.inj hb).symm, ?_⟩
    set q := (tfStep l (impVal none) rho gamma)^[k - 1] ((fun _ => t0), fun _ => 0) with hqdef
    have hs : 0 ≤ ∑ s ∈ sourcesOf l (v, x), -Real.log (1 - q.1 s) := by
      refine Finset.sum_nonneg fun s hs => ?_
      obtain ⟨a, b⟩ := hq s (mem_sources_of_sourcesOf l hs)
      have := Real.log_nonpos (x := 1 - q.1 s) (by linarith) (by linarith)
      linarith
    simp only [tfStep, impVal, zero_mul, Finset.sum_const_zero, mul_zero, add_zero]
    apply one_div_le_one_div_of_le (by positivity)
    have : Real.exp (-gamma * ∑ s ∈ sourcesOf l (v, x), -Real.log (1 - q.1 s)) ≤ 1 := by
      apply Real.exp_le_one_iff.2
      nlinarith
    linarith
  · simp at hb

/-! ### C36: CRH -/

/-- **C36.** CRH with positive tolerance computes the published update. -/
theorem C36_crh (l : List (S × V × X)) (am : Bool) (f : Option (V → X → X → Option Ex))
    (d : Dataset S V X Ex) (h : Dataset.mk' l am f = .ok d) (hl : l ≠ []) (it : IterCfg Ex)
    (pr : Option Prior) (eps : ℝ) (he : 0 < eps) :
    Computes ⟨.crh (fin eps), it, pr⟩ d l
      ((fun _ => 0), fun c => nSources l c / (allSources l).card) (crhStep l eps) := by
  obtain rfl := mk'_ex h
  exact computes_of (by simp) hl fun it => crh_implements hl f it pr eps he

/-- **C36.** After at least one iteration: weights are at least `eps`; beliefs are
in `[0, 1]`. -/
theorem C36_range (l : List (S × V × X)) (am : Bool) (f : Option (V → X → X → Option Ex))
    (d : Dataset S V X Ex) (h : Dataset.mk' l am f = .ok d) (hl : l ≠ []) (it : IterCfg Ex)
    (pr : Option Prior) (eps : ℝ) (he : 0 < eps)
    (fuel : Nat) (clock : Nat → Ex) (st : IterState Ex) (r : Result S V X Ex)
    (hr : (⟨.crh (fin eps), it, pr⟩ : AlgCfg Ex).run d fuel clock st = .ok r)
    (k : Nat) (hk : r.iterations = some k) (hk1 : 1 ≤ k) :
    (∀ s x, r.trust.get? s = some x → ∃ y, x = fin y ∧ eps ≤ y) ∧
    (∀ v x b, (r.belief.get? v).bind (fun d => d.get? x) = some b → ∃ y, b = fin y ∧ 0 ≤ y ∧ y ≤ 1) := by
  obtain ⟨k', e, hrep⟩ := (C36_crh l am f d h hl it pr eps he).1 fuel clock st r hr
  obtain rfl : k = k' := by rw [hk] at e; exact Option.some.inj e
  rw [iterate_last _ _ hk1] at hrep
  set q := (crhStep l eps)^[k - 1] ((fun _ => 0), fun c => nSources l c / (allSources l).card)
  constructor
  · intro s x hx
    rw [hrep.1] at hx
    split at hx
    · rename_i hs
      exact ⟨_, (Option.some.inj hx).symm, crhT_ge' hl he q ((mem_allSources l).1 hs)⟩
    · simp at hx
  · intro v x b hb
    rw [hrep.2] at hb
    split at hb
    · refine ⟨_, (Option.some.inj hb).symm, ?_, ?_⟩
      · refine div_nonneg (Finset.sum_nonneg fun s hs => ?_) (crhT_sum_pos hl he q).le
        exact he.le.trans (crhT_ge' hl he q (mem_sources_of_sourcesOf l hs))
      · refine (div_le_one (crhT_sum_pos hl he q)).2 ?_
        refine Finset.sum_le_sum_of_subset_of_nonneg (fun s hs => ?_) fun s hs _ => ?_
        · exact (mem_allSources l).2 (mem_sources_of_sourcesOf l hs)
        · exact he.le.trans (crhT_ge' hl he q ((mem_allSources l).1 hs))
    · simp at hb

/-- Weights of the sources claiming something about the variable of `c`. -/
theorem sum_rivals_sources (l : List (S × V × X)) (c : V × X) (t : S → ℝ) :
    ∑ d ∈ rivals l c, ∑ s ∈ sourcesOf l d, t s =
      ∑ s ∈ (rivals l c).biUnion (sourcesOf l), t s := by
  rw [Finset.sum_biUnion]
  intro d hd e he hne
  rw [Function.onFun, Finset.disjoint_left]
  intro s hs hs'
  apply hne
  have h1 := (mem_sourcesOf l).1 hs
  have h2 := (mem_sourcesOf l).1 hs'
  have hd' := ((mem_rivals l).1 hd).2
  have he' := ((mem_rivals l).1 he).2
  have := recorded_unique l h1 h2 (by simp) (by simp [← hd', ← he'])
  simpa using this

/-- **C36.** The beliefs in the claims about a variable sum to at most 1, and to
exactly 1 iff every source claims something about the variable. -/
theorem C36_sum (l : List (S × V × X)) (am : Bool) (f : Option (V → X → X → Option Ex))
    (d : Dataset S V X Ex) (h : Dataset.mk' l am f = .ok d) (hl : l ≠ []) (it : IterCfg Ex)
    (pr : Option Prior) (eps : ℝ) (he : 0 < eps)
    (fuel : Nat) (clock : Nat → Ex) (st : IterState Ex) (r : Result S V X Ex)
    (hr : (⟨.crh (fin eps), it, pr⟩ : AlgCfg Ex).run d fuel clock st = .ok r)
    (k : Nat) (hk : r.iterations = some k) (hk1 : 1 ≤ k) :
    ∃ p, Reports l r p ∧ ∀ c ∈ allClaims l, (∑ e ∈ rivals l c, p.2 e) ≤ 1 ∧
      ((∑ e ∈ rivals l c, p.2 e) = 1 ↔ ∀ s ∈ allSources l, ∃ x, (s, c.1, x) ∈ recorded l) := by
  obtain ⟨k', e, hrep⟩ := (C36_crh l am f d h hl it pr eps he).1 fuel clock st r hr
  obtain rfl : k = k' := by rw [hk] at e; exact Option.some.inj e
  refine ⟨_, hrep, ?_⟩
  rw [iterate_last _ _ hk1]
  set q := (crhStep l eps)^[k - 1] ((fun _ => 0), fun c => nSources l c / (allSources l).card)
  intro c hc
  have htpos : ∀ s ∈ allSources l, 0 < (crhStep l eps q).1 s := fun s hs =>
    he.trans_le (crhT_ge' hl he q ((mem_allSources l).1 hs))
  have hsum : ∑ e ∈ rivals l c, (crhStep l eps q).2 e =
      (∑ s ∈ (rivals l c).biUnion (sourcesOf l), (crhStep l eps q).1 s) /
        ∑ s ∈ allSources l, (crhStep l eps q).1 s := by
    rw [← sum_rivals_sources, Finset.sum_div]
    rfl
  have hsub : (rivals l c).biUnion (sourcesOf l) ⊆ allSources l := by
    intro s hs
    obtain ⟨d, -, hs⟩ := Finset.mem_biUnion.1 hs
    exact (mem_allSources l).2 (mem_sources_of_sourcesOf l hs)
  have hpos := crhT_sum_pos hl he q
  rw [hsum]
  constructor
  · rw [div_le_one hpos]
    exact Finset.sum_le_sum_of_subset_of_nonneg hsub fun s hs _ => (htpos s hs).le
  · rw [div_eq_one_iff_eq hpos.ne']
    have hmem : ∀ s, s ∈ (rivals l c).biUnion (sourcesOf l) ↔ ∃ x, (s, c.1, x) ∈ recorded l := by
      intro s
      rw [Finset.mem_biUnion]
      constructor
      · rintro ⟨⟨v, x⟩, hd, hs⟩
        obtain ⟨-, e⟩ := (mem_rivals l).1 hd
        exact ⟨x, by rw [e]; exact (mem_sourcesOf l).1 hs⟩
      · rintro ⟨x, hx⟩
        exact ⟨(c.1, x), (mem_rivals l).2 ⟨(mem_claims l).2 ⟨_, hx, rfl⟩, rfl⟩, (mem_sourcesOf l).2 hx⟩
    constructor
    · intro heq s hs
      by_contra hno
      have hnot : s ∉ (rivals l c).biUnion (sourcesOf l) := fun h => hno ((hmem s).1 h)
      have := Finset.sum_lt_sum_of_subset hsub hs hnot (htpos s hs) fun j hj _ => (htpos j hj).le
      linarith
    · intro hall
      rw [Finset.Subset.antisymm hsub fun s hs => (hmem s).2 (hall s hs)]

/-! ### Concrete cases meeting the hypotheses -/

theorem example_dataset : ∃ d : Dataset String String Nat Ex,
    Dataset.mk' [("s", "x", 1), ("t", "x", 2), ("s", "y", 1), ("u", "x", 2)] false none = .ok d :=
  ⟨_, (mk'_ok_iff _ ex_one_ne_zero false none _).2 ⟨rfl, by decide, fun h => h⟩⟩

/-- `s` makes two claims. -/
example : ∃ s, 2 ≤ (claimsOf [("s", "x", 1), ("t", "x", 2), ("s", "y", 1), ("u", "x", 2)] s).card :=
  ⟨"s", by decide⟩

/-- A run of three iterations of each algorithm. -/
example (d : Dataset String String Nat Ex)
    (h : Dataset.mk' [("s", "x", 1), ("t", "x", 2), ("s", "y", 1), ("u", "x", 2)] false none = .ok d)
    (k : Kind Ex) (hk : k = .sums ∨ k = .averageLog ∨ k = .investment (fin (6 / 5)) ∨
      k = .pooledInvestment (fin (7 / 5)) ∨ k = .truthFinder (fin (1 / 2)) (fin (3 / 10)) (fin (9 / 10)) ∨
      k = .crh (fin (1 / 10))) :
    ∃ r, (⟨k, .fixed 3, some .uniform⟩ : AlgCfg Ex).run d 4 (fun _ => fin 0) = .ok r ∧
      r.iterations = some 3 := by
  rcases hk with rfl | rfl | rfl | rfl | rfl | rfl
  · obtain ⟨r, h1, h2, -⟩ := (C30_sums _ _ _ d h (by simp) (.fixed 3) .uniform).2.2 3 4
      (fun _ => fin 0) {} (by decide)
    exact ⟨r, h1, h2⟩
  · obtain ⟨r, h1, h2, -⟩ := (C32_average_log _ _ _ d h ⟨"s", by decide⟩ (.fixed 3) .uniform).2.2 3 4
      (fun _ => fin 0) {} (by decide)
    exact ⟨r, h1, h2⟩
  · obtain ⟨r, h1, h2, -⟩ := (C33_investment _ _ _ d h (by simp) (.fixed 3) .uniform _).2.2 3 4
      (fun _ => fin 0) {} (by decide)
    exact ⟨r, h1, h2⟩
  · obtain ⟨r, h1, h2, -⟩ := (C34_pooled_investment _ _ _ d h (by simp) (.fixed 3) .uniform _).2.2 3 4
      (fun _ => fin 0) {} (by decide)
    exact ⟨r, h1, h2⟩
  · have h' : Dataset.mk' [("s", "x", 1), ("t", "x", 2), ("s", "y", 1), ("u", "x", 2)] false
      (finImp (none : Option (String → Nat → Nat → Option ℝ))) = .ok d := h
    obtain ⟨r, h1, h2, -⟩ := (C35_truth_finder _ _ _ d h' (by simp) (.fixed 3) (some .uniform)
      (1 / 2) (3 / 10) (9 / 10) (by norm_num) (by norm_num)).2.2 3 4 (fun _ => fin 0) {} (by decide)
    exact ⟨r, h1, h2⟩
  · obtain ⟨r, h1, h2, -⟩ := (C36_crh _ _ _ d h (by simp) (.fixed 3) (some .uniform) (1 / 10)
      (by norm_num)).2.2 3 4 (fun _ => fin 0) {} (by decide)
    exact ⟨r, h1, h2⟩

end TD
