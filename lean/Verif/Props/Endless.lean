import Verif.Lemmas.Fixed
import Verif.Props.Rounded
import Verif.Props.Convergence
import Verif.Model.Client
/-!
# C97: UnboundedSums in double precision may run for ever
-/

namespace TD
open Spec Fixed

variable {ω : Platform}

/-- Three sources and six variables, all with the value 0: source 0 makes a claim on variables 0 to 4, source 1 on
variables 1 to 5, source 2 on variables 3 and 4. -/
abbrev endless : List (Nat × Nat × Nat) :=
  [(0, 0, 0), (0, 1, 0), (0, 2, 0), (0, 3, 0), (0, 4, 0), (1, 1, 0), (1, 2, 0), (1, 3, 0), (1, 4, 0), (1, 5, 0),
    (2, 3, 0), (2, 4, 0)]

abbrev eRows : List (List Nat) := [[0, 1, 2, 3, 4], [1, 2, 3, 4, 5], [3, 4]]
abbrev eCols : List (List Nat) := [[0], [0, 1], [0, 1], [0, 1, 2], [0, 1, 2], [1]]
abbrev rRows : List (List Nat) := [[0, 1], [0, 1, 2, 3, 4], [0, 1, 3, 4, 5]]
abbrev rCols : List (List Nat) := [[0, 1, 2], [0, 1, 2], [1], [1, 2], [1, 2], [2]]

theorem endless_rows : (matsOf endless none : Mats (FP (.binary64 ω))).sc.rows = onesAt eRows ∧
    (matsOf endless none : Mats (FP (.binary64 ω))).sc.T.rows = onesAt eCols := ⟨rfl, rfl⟩

theorem reversed_rows : (matsOf endless.reverse none : Mats (FP (.binary64 ω))).sc.rows = onesAt rRows ∧
    (matsOf endless.reverse none : Mats (FP (.binary64 ω))).sc.T.rows = onesAt rCols := ⟨rfl, rfl⟩

/-- The scores before the loop. -/
def start (rows cols : List (List Nat)) : Option St := do
  let b ← cols.mapM (row? (List.replicate rows.length (2 ^ 62)))
  return (List.replicate rows.length 0, b, 0)

theorem start_val {m : Mats (FP (.binary64 ω))} {rows cols : List (List Nat)} (hn : m.numSources = rows.length)
    (hc : m.sc.T.rows = onesAt cols) {s : St} (h : start rows cols = some s) (it : IterCfg (FP (.binary64 ω))) :
    (⟨.unboundedSums, it, some .count⟩ : AlgCfg (FP (.binary64 ω))).init m = .ok (s.1.map val, s.2.1.map val) ∧
      s.2.2 = 0 := by
  unfold start at h
  simp only [bind, pure, Option.bind_eq_some_iff, Option.some.injEq] at h
  obtain ⟨b, hb, rfl⟩ := h
  refine ⟨?_, rfl⟩
  have e1 : (ones m.numSources : Vec (FP (.binary64 ω))) = (List.replicate rows.length (2 ^ 62)).map val := by
    rw [ones, hn, List.map_replicate, FP.one_eq]
    congr 1
    show FP.fin 1 = FP.fin _
    congr 1
    norm_num
  have e2 : (zeros m.numSources : Vec (FP (.binary64 ω))) = (List.replicate rows.length 0).map val := by
    rw [zeros, hn, List.map_replicate, FP.zero_eq, val_zero]
  simp only [AlgCfg.init, priorBeliefs, sourceCounts, bind, Except.bind, pure, Except.pure]
  rw [e1, mulVec_val hc hb, e2]

/-- The run is in the same state after 22 iterations as after 19. -/
theorem endless_cycle : ∃ s s', start eRows eCols = some s ∧ steps? eRows eCols 19 s = some s' ∧
    steps? eRows eCols (2 + 1) s' = some s' := by
  have h : ((start eRows eCols).bind fun s => (steps? eRows eCols 19 s).bind fun s' =>
      (steps? eRows eCols (2 + 1) s').map fun s'' => decide (s'' = s')) = some true := by decide +kernel
  simp only [Option.bind_eq_some_iff, Option.map_eq_some_iff, decide_eq_true_eq] at h
  obtain ⟨s, h1, s', h2, s'', h3, rfl⟩ := h
  exact ⟨s, _, h1, h2, h3⟩

/-- The run on the claims in reverse order: the state after 36 iterations. -/
theorem reversed_stops : ∃ s s', start rRows rCols = some s ∧ steps? rRows rCols 36 s = some s' ∧ s'.2.2 = 20 ∧
    ranksOf s'.1 = [0, 1, 1] ∧ ranksOf s'.2.1 = [2, 2, 0, 1, 1, 0] := by
  have h : ((start rRows rCols).bind fun s => (steps? rRows rCols 36 s).map fun s' =>
      decide (s'.2.2 = 20 ∧ ranksOf s'.1 = [0, 1, 1] ∧ ranksOf s'.2.1 = [2, 2, 0, 1, 1, 0])) = some true := by
    decide +kernel
  simp only [Option.bind_eq_some_iff, Option.map_eq_some_iff, decide_eq_true_eq] at h
  obtain ⟨s, h1, s', h2, h3, h4, h5⟩ := h
  exact ⟨s, _, h1, h2, h3, h4, h5⟩

theorem endless_run {th : Int} (hth : 20 ≤ th) (clock : Nat → FP (.binary64 ω)) (fuel : Nat)
    (st : IterState (FP (.binary64 ω))) :
    (⟨.unboundedSums, .ord th, some .count⟩ : AlgCfg (FP (.binary64 ω))).run (datasetOf endless none) fuel clock st =
      .error .diverge := by
  obtain ⟨s, s', h0, h1, h2⟩ := endless_cycle
  obtain ⟨s'', h3⟩ := steps?_cycle h1 h2 fuel
  obtain ⟨hi, hc⟩ := start_val (m := matsOf endless none) (ω := ω) rfl endless_rows.2 h0 (.ord th)
  obtain ⟨L, hL⟩ := steps_val endless_rows.1 endless_rows.2 h3 hth 0 none
  rw [hc] at hL
  rw [run_eq, exec_eq _ _ _ _ (show (6 : Nat) ≠ 0 by decide), hi]
  simp only
  have hl : ∀ log, loop (.ord th) ((Kind.unboundedSums).body (matsOf endless none)) fuel {} (s.1.map val)
      (s.2.1.map (val (ω := ω))) log = .error .diverge :=
    fun log => (loop_error_iff fuel {} _ _ log .diverge).2 (.inl ⟨rfl, _, _, _, _, hL⟩)
  rw [hl]

/-- **C97.** UnboundedSums with its default settings (ranking kept for 20 iterations, counting prior), or with any
larger number of iterations, never returns on these twelve claims: it is still iterating after any number `fuel` of
iterations.  In double precision, for any order of summation of the products. -/
theorem C97_endless (clock : Nat → FP (.binary64 ω)) :
    ∃ (alg : AnyAlg (FP (.binary64 ω))) (d : Dataset Nat Nat Nat (FP (.binary64 ω))),
      makeAlg .usums [] = .ok alg ∧
      Dataset.mk' [(0, 0, 0), (0, 1, 0), (0, 2, 0), (0, 3, 0), (0, 4, 0), (1, 1, 0), (1, 2, 0), (1, 3, 0), (1, 4, 0),
        (1, 5, 0), (2, 3, 0), (2, 4, 0)] false none = .ok d ∧
      (∀ fuel, alg.run d fuel clock = .error .diverge) ∧
      ∀ (th : Int), 20 ≤ th → ∀ fuel st,
        (⟨.unboundedSums, .ord th, some .count⟩ : AlgCfg (FP (.binary64 ω))).run d fuel clock st = .error .diverge := by
  have hd := (mk'_ok_iff endless (one_ne_zero_fp (R := .binary64 ω)) false none _).2
    ⟨rfl, .inr (by simp [NoRepeats]), by simp [optImpBad]⟩
  exact ⟨.iter ⟨.unboundedSums, .ord 20, some .count⟩, _, rfl, hd, fun fuel => endless_run le_rfl clock fuel {},
    fun th hth fuel st => endless_run hth clock fuel st⟩

/-- **C97.** The same claims given in the reverse order: the run returns after 36 iterations. -/
theorem C97_reversed (clock : Nat → FP (.binary64 ω)) (fuel : Nat) (hf : 36 < fuel) :
    ∃ (alg : AnyAlg (FP (.binary64 ω))) (d : Dataset Nat Nat Nat (FP (.binary64 ω)))
      (r : Result Nat Nat Nat (FP (.binary64 ω))),
      makeAlg .usums [] = .ok alg ∧
      Dataset.mk' [(2, 4, 0), (2, 3, 0), (1, 5, 0), (1, 4, 0), (1, 3, 0), (1, 2, 0), (1, 1, 0), (0, 4, 0), (0, 3, 0),
        (0, 2, 0), (0, 1, 0), (0, 0, 0)] false none = .ok d ∧
      alg.run d fuel clock = .ok r ∧ r.iterations = some 36 ∧
      r.trust = [(2, FP.fin 0), (1, FP.fin 1), (0, FP.fin 1)] ∧
      r.belief = [(4, [(0, FP.fin 2)]), (3, [(0, FP.fin 2)]), (5, [(0, FP.fin 0)]), (2, [(0, FP.fin 1)]),
        (1, [(0, FP.fin 1)]), (0, [(0, FP.fin 0)])] := by
  have hd := (mk'_ok_iff endless.reverse (one_ne_zero_fp (R := .binary64 ω)) false none _).2
    ⟨rfl, .inr (by simp [NoRepeats]), by simp [optImpBad]⟩
  obtain ⟨s, s', h0, h1, h2, h3, h4⟩ := reversed_stops
  obtain ⟨hi, hc⟩ := start_val (m := matsOf endless.reverse none) (ω := ω) rfl reversed_rows.2 h0 (.ord 20)
  obtain ⟨L, hL⟩ := steps_val reversed_rows.1 reversed_rows.2 h1 (th := 20) le_rfl 0 none
  rw [hc] at hL
  have fin : (⟨.unboundedSums, .ord 20, some .count⟩ : AlgCfg (FP (.binary64 ω))).finish (s'.1.map val)
      (s'.2.1.map val) = .ok ([0, 1, 1].map Arith.ofNat, [2, 2, 0, 1, 1, 0].map Arith.ofNat) := by
    simp only [AlgCfg.finish, rankingVector_val, bind, Except.bind, pure, Except.pure, h3, h4]
  have hex := (exec_ok_iff (⟨.unboundedSums, .ord 20, some .count⟩ : AlgCfg (FP (.binary64 ω)))
      (matsOf endless.reverse none) fuel {} ⟨_, _, 36, _⟩).2
      ⟨(show (6 : Nat) ≠ 0 by decide), _, _, 36, _, _, _, L, hi, hf, hL, .inl ?_, fin, rfl, rfl⟩
  · refine ⟨.iter ⟨.unboundedSums, .ord 20, some .count⟩, _, resultOf endless.reverse ([0, 1, 1].map Arith.ofNat)
      ([2, 2, 0, 1, 1, 0].map Arith.ofNat) (clock 1 -. clock 0) (some 36),
      rfl, hd, ?_, rfl, ?_, ?_⟩
    · show AlgCfg.run _ _ _ _ _ = _
      rw [run_eq, hex]
      rfl
    · show [(2, Arith.ofNat 0), (1, Arith.ofNat 1), (0, Arith.ofNat 1)] = _
      rw [FP.zero_eq, FP.one_eq]
    · have e2 : (Arith.ofNat 2 : FP (.binary64 ω)) = FP.fin 2 := by
        have : (Rounding.binary64 ω).rnd (2 : Nat) = .fin (2 : Nat) := rep64_nat (by norm_num)
        exact this
      show [(4, [(0, Arith.ofNat 2)]), (3, [(0, Arith.ofNat 2)]), (5, [(0, Arith.ofNat 0)]), (2, [(0, Arith.ofNat 1)]),
        (1, [(0, Arith.ofNat 1)]), (0, [(0, Arith.ofNat 0)])] = _
      rw [FP.zero_eq, FP.one_eq, e2]
  · rw [h2]; rfl

/-- In exact arithmetic the run on these claims terminates (C38). -/
example : ∃ d : Dataset Nat Nat Nat Ex, Dataset.mk' endless false none = .ok d ∧
    ∃ N, ∀ fuel, N < fuel → ∃ r,
      (⟨.unboundedSums, .ord 20, some .count⟩ : AlgCfg Ex).run d fuel (fun _ => Ex.fin 0) = .ok r := by
  obtain ⟨d, hd⟩ := exists_dataset endless (by simp [NoRepeats])
  obtain ⟨N, hN⟩ := C38_terminates _ _ _ d hd (by simp) 20 .count
  exact ⟨d, hd, N, fun fuel h => hN fuel _ {} h⟩

end TD
