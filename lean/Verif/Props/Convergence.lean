import Verif.Lemmas.Converge
import Verif.Props.Unbounded
/-!
# C38, C39: UnboundedSums terminates and Sums converges, on every dataset

Exact arithmetic.  The update of the trust vector is multiplication by a positive
semidefinite matrix; the spectral theorem (Mathlib) turns iterates into sums of
powers of non-negative eigenvalues.
-/

namespace TD
open Spec Ex Filter Topology
attribute [-instance] instBEqProd

variable {S V X : Type} [DecidableEq S] [DecidableEq V] [DecidableEq X]

/-- **C38.** UnboundedSums terminates on every non-empty dataset, for every
threshold and prior: there is a number of iterations after which `run` has
returned a result. -/
theorem C38_terminates (l : List (S × V × X)) (am : Bool) (f : Option (V → X → X → Option Ex))
    (d : Dataset S V X Ex) (h : Dataset.mk' l am f = .ok d) (hl : l ≠ []) (th : Int) (p : Prior) :
    ∃ N, ∀ fuel clock st, N < fuel →
      ∃ r, (⟨.unboundedSums, .ord th, some p⟩ : AlgCfg Ex).run d fuel clock st = .ok r := by
  obtain ⟨k, hk⟩ := exists_settled l (priorOf l p) th
  exact ⟨k, fun fuel clock st hf => C37_returns l am f d h hl th p k hk fuel hf clock st⟩

/-- **C38.** The reason: from some iteration on, the ranking of the trust vector
never changes again. -/
theorem C38_ranking_settles (l : List (S × V × X)) (prior : V × X → ℝ) :
    ∃ N, ∀ k, N ≤ k → SameOrder (allSources l) (usums l prior N).1 (usums l prior k).1 := by
  obtain ⟨N, hN⟩ := usums_settles l prior
  refine ⟨N, ?_⟩
  intro k hk
  induction k, hk using Nat.le_induction with
  | base => exact fun _ _ _ _ => Iff.rfl
  | succ k hk ih => exact fun a ha b hb => (ih a ha b hb).trans (hN k hk a ha b hb)

/-- **C39.** The scores computed by Sums converge on every non-empty dataset, for
every prior, to scores of which the largest are 1. -/
theorem C39_converges (l : List (S × V × X)) (hl : l ≠ []) (p : Prior) :
    ∃ q : Scores S V X,
      (∀ s ∈ allSources l, Tendsto (fun k => ((sumsStep l)^[k] ((fun _ => 0), priorOf l p)).1 s) atTop
        (𝓝 (q.1 s))) ∧
      (∀ c ∈ allClaims l, Tendsto (fun k => ((sumsStep l)^[k] ((fun _ => 0), priorOf l p)).2 c) atTop
        (𝓝 (q.2 c))) ∧
      (∃ s ∈ allSources l, q.1 s = 1) ∧ (∃ c ∈ allClaims l, q.2 c = 1) := by
  obtain ⟨q, h1, h2, -, h3, h4⟩ := sums_limit hl (prior := priorOf l p) (fun c hc => priorOf_pos p hc)
  exact ⟨q, h3, h4, h1, h2⟩

/-- **C39.** Hence Sums with a `ConvergenceIterator` of any measure (also cosine)
and any positive threshold succeeds, if the limit is large enough for the dataset;
it then never raises `ConvergenceError`. -/
theorem C39_run_succeeds (l : List (S × V × X)) (am : Bool) (f : Option (V → X → X → Option Ex))
    (d : Dataset S V X Ex) (h : Dataset.mk' l am f = .ok d) (hl : l ≠ []) (p : Prior)
    (m : Measure) (th : ℝ) (hth : 0 < th) :
    ∃ N : Nat, ∀ (limit : Int) (fuel : Nat) (clock : Nat → Ex) (st : IterState Ex),
      (N : Int) ≤ limit → N < fuel →
      ∃ r, (⟨.sums, .conv (some m) (fin th) limit, some p⟩ : AlgCfg Ex).run d fuel clock st = .ok r ∧
        ∃ k, r.iterations = some k ∧ k ≤ N := by
  obtain rfl := mk'_ex h
  obtain ⟨q, ⟨s1, hs1, e1⟩, -, -, h3, -⟩ :=
    sums_limit hl (prior := priorOf l p) (fun c hc => priorOf_pos p hc)
  let T : Nat → S → ℝ := fun k => ((sumsStep l)^[k] ((fun _ => 0), priorOf l p)).1
  have hdist : Tendsto (fun k => distance m (allSources l) (T k) (T (k + 1))) atTop (𝓝 0) :=
    tendsto_distance ⟨s1, hs1⟩ h3 (fun a ha => (tendsto_add_atTop_iff_nat 1).2 (h3 a ha))
      ⟨s1, hs1, by rw [e1]; exact one_ne_zero⟩ m
  obtain ⟨n, hn, hbef⟩ := exists_first (hdist.eventually_lt_const hth).exists
  refine ⟨n + 1, ?_⟩
  intro limit fuel clock st hlim hfuel
  have H := sums_implements f hl (.conv (some m) (fin th) limit) p
  have ht : Implements.Traj ⟨.sums, .conv (some m) (fin th) limit, some p⟩ l
      ((fun _ => 0), priorOf l p) (sumsStep l) (fun q => (q.1, (sumsStep l q).1))
      (fun k => ⟨k, if k = 0 then none else some (fin (distance m (allSources l) (T (k - 1)) (T k))), 0⟩) := by
    refine ⟨rfl, ?_⟩
    intro k
    have hg := getDistance_eq (nodup_sources l) (sources_ne hl) m (T k) (T (k + 1))
    rw [sources_toFinset] at hg
    have e2 : (sumsStep l ((sumsStep l)^[k] ((fun _ => 0), priorOf l p))).1 = T (k + 1) := by
      simp only [T]; rw [Function.iterate_succ_apply']
    simp only [IterCfg.compare, e2]
    show (do let d ← getDistance (some m) (repS l (T k)) (repS l (T (k + 1))); _) = _
    unfold repS
    rw [hg]
    rfl
  have hfin : ∀ t b, (⟨.sums, .conv (some m) (fin th) limit, some p⟩ : AlgCfg Ex).finish t b = .ok (t, b) :=
    fun _ _ => rfl
  obtain ⟨r, hr, hit, -⟩ := H.exec_of_traj ht hl st (n := n + 1) hfuel
    (by
      simp only [IterCfg.finished, IterState.below, Nat.add_sub_cancel, Nat.succ_ne_zero, ↓reduceIte,
        lt_eq, hn, decide_true])
    (by
      intro i hi
      have hlt : ¬ ((i : Nat) : Int) ≥ limit := by omega
      cases i with
      | zero =>
        simp only [IterCfg.finished, IterState.below, ↓reduceIte, Bool.false_eq_true, hlt]
      | succ i =>
        have := hbef i (by omega)
        simp only [IterCfg.finished, IterState.below, Nat.add_sub_cancel, Nat.succ_ne_zero, ↓reduceIte,
          lt_eq, this, decide_false, Bool.false_eq_true, hlt])
    (hfin _ _)
  rw [run_eq, hr]
  exact ⟨_, rfl, n + 1, by simp [resultOf, hit], le_rfl⟩

/-- The hypotheses are met by every accepted non-empty dataset; e.g. this one. -/
example : ∃ d : Dataset String String Nat Ex, Dataset.mk' Toy.triples false none = .ok d ∧
    ∃ N, ∀ fuel, N < fuel → ∃ r,
      (⟨.unboundedSums, .ord 20, some .count⟩ : AlgCfg Ex).run d fuel (fun _ => fin 0) = .ok r := by
  obtain ⟨d, hd⟩ := exists_dataset Toy.triples (by decide)
  obtain ⟨N, hN⟩ := C38_terminates _ _ _ d hd (by simp [Toy.triples]) 20 .count
  exact ⟨d, hd, N, fun fuel h => hN fuel _ {} h⟩

end TD
