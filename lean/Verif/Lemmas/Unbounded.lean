import Verif.Lemmas.Trajectory
import Verif.Lemmas.Algos2
import Verif.Lemmas.Rank
import Verif.Spec.Ranks
/-! UnboundedSums: rescaling does not matter, rankings decide when it stops. -/

namespace TD
open Spec Ex
attribute [-instance] instBEqProd

/-! ### Ranks of vectors of finite numbers -/

/-- Real value of a finite number. -/
noncomputable def exVal (x : Ex) : ℝ := match x with | FNum.fin y => y | _ => 0

theorem exVal_fin (y : ℝ) : exVal (fin y) = y := rfl

theorem keyed_fin {A : Type} (as : List A) (f : A → ℝ) :
    KeyedOn (α := Ex) exVal (as.map fun a => fin (f a)) := by
  intro x hx y hy
  obtain ⟨a, -, rfl⟩ := List.mem_map.1 hx
  obtain ⟨b, -, rfl⟩ := List.mem_map.1 hy
  exact ⟨lt_eq _ _, eq_eq _ _⟩

theorem rankingVector_fin {A : Type} [DecidableEq A] (as : List A) (f : A → ℝ) :
    rankingVector (as.map fun a => fin (f a)) = .ok (as.map (rank as.toFinset f)) := by
  rw [rankingVector_eq (keyed_fin as f), List.map_map]
  congr 1
  apply List.map_congr_left
  intro a _
  simp only [Function.comp_apply, exVal_fin, rankIn, rank]
  congr 2
  ext y
  simp [exVal_fin]

theorem ranks_eq_iff {A : Type} [DecidableEq A] (as : List A) (f g : A → ℝ) :
    as.map (rank as.toFinset f) = as.map (rank as.toFinset g) ↔ SameOrder as.toFinset f g := by
  have h := ranking_eq_iff (k := exVal) (k' := exVal) as (fun a => fin (f a)) (fun a => fin (g a))
  have e : ∀ f : A → ℝ, ((as.map fun a => fin (f a)).map fun x =>
      rankIn exVal (as.map fun a => fin (f a)) (exVal x)) = as.map (rank as.toFinset f) := by
    intro f
    have h1 := rankingVector_fin as f
    rw [rankingVector_eq (keyed_fin as f)] at h1
    exact Except.ok.inj h1
  rw [e f, e g] at h
  rw [h]
  simp [SameOrder, exVal_fin]

variable {S V X : Type} [DecidableEq S] [DecidableEq V] [DecidableEq X]
variable {l : List (S × V × X)}

theorem rank_smul {A : Type} (F : Finset A) (f : A → ℝ) {r : ℝ} (hr : 0 < r) (a : A) :
    rank F (fun a => r * f a) a = rank F f a := by
  classical
  unfold rank
  have : F.image (fun a => r * f a) = (F.image f).image (fun y => r * y) := by
    rw [Finset.image_image]; rfl
  rw [this, Finset.filter_image, Finset.card_image_of_injective]
  · congr 1
    ext y
    simp [mul_lt_mul_iff_right₀ hr]
  · intro x y h
    exact mul_left_cancel₀ hr.ne' h

/-! ### Rescaling -/

theorem resc_eq {A : Type} (F : Finset A) (f : A → ℝ) :
    ∃ r : ℝ, 0 < r ∧ resc F f = fun a => r * f a := by
  unfold resc
  by_cases h : 1000 < top F f
  · refine ⟨1 / 1000, by norm_num, ?_⟩
    funext a; rw [if_pos h]; ring
  · refine ⟨1, one_pos, ?_⟩
    funext a; rw [if_neg h]; ring

theorem sumTrust_smul (r : ℝ) (b : V × X → ℝ) :
    sumTrust l (fun c => r * b c) = fun s => r * sumTrust l b s := by
  funext s; simp [sumTrust, Finset.mul_sum]

theorem sumBelief_smul (r : ℝ) (t : S → ℝ) :
    sumBelief l (fun c => r * t c) = fun s => r * sumBelief l t s := by
  funext s; simp [sumBelief, Finset.mul_sum]

/-- The rescaled iterates are positive multiples of the plain ones. -/
theorem usumsResc_iterate (prior : V × X → ℝ) (k : Nat) :
    ∃ a b : ℝ, 0 < a ∧ 0 < b ∧
      (usumsResc l)^[k] ((fun _ => 0), prior) =
        ((fun s => a * (usums l prior k).1 s), fun c => b * (usums l prior k).2 c) := by
  induction k with
  | zero => exact ⟨1, 1, one_pos, one_pos, by simp [usums]⟩
  | succ k ih =>
    obtain ⟨a, b, ha, hb, h⟩ := ih
    rw [Function.iterate_succ_apply', h]
    have hu : usums l prior (k + 1) = usumsStep l (usums l prior k) := by
      unfold usums; rw [Function.iterate_succ_apply']
    rw [hu]
    simp only [usumsResc, usumsStep, sumTrust_smul, sumBelief_smul]
    obtain ⟨r, hr, e1⟩ := resc_eq (allSources l) (fun s => b * sumTrust l (usums l prior k).2 s)
    obtain ⟨q, hq, e2⟩ := resc_eq (allClaims l)
      (fun c => b * sumBelief l (sumTrust l (usums l prior k).2) c)
    refine ⟨r * b, q * b, mul_pos hr hb, mul_pos hq hb, ?_⟩
    rw [e1, e2]
    simp only [mul_assoc]

/-! ### The iterator -/

open Classical in
/-- Number of most recent updates that kept the ranking. -/
noncomputable def kept (l : List (S × V × X)) (prior : V × X → ℝ) : Nat → Nat
  | 0 => 0
  | k + 1 => if SameOrder (allSources l) (usums l prior k).1 (usums l prior (k + 1)).1
      then kept l prior k + 1 else 0

theorem kept_iff (prior : V × X → ℝ) (k : Nat) (th : Int) :
    ((kept l prior k : Nat) : Int) ≥ th ↔ Settled l prior th k := by
  induction k generalizing th with
  | zero => simp [kept, Settled]
  | succ k ih =>
    unfold kept
    by_cases h : SameOrder (allSources l) (usums l prior k).1 (usums l prior (k + 1)).1
    · rw [if_pos h]
      have : ((kept l prior k + 1 : Nat) : Int) ≥ th ↔ ((kept l prior k : Nat) : Int) ≥ th - 1 := by
        push_cast; omega
      rw [this, ih]
      unfold Settled
      constructor
      · rintro ⟨h1, h2⟩
        refine ⟨by push_cast; omega, ?_⟩
        intro i hi hki
        by_cases hik : i = k
        · subst hik; exact h
        · exact h2 i (by omega) (by push_cast at hki; omega)
      · rintro ⟨h1, h2⟩
        refine ⟨by push_cast at h1; omega, ?_⟩
        intro i hi hki
        exact h2 i (by omega) (by push_cast; omega)
    · rw [if_neg h]
      unfold Settled
      constructor
      · intro h0
        refine ⟨by push_cast at h0 ⊢; omega, ?_⟩
        intro i hi hki
        push_cast at hki h0
        omega
      · rintro ⟨h1, h2⟩
        by_contra hc
        exact h (h2 k (by omega) (by push_cast at hc ⊢; omega))

theorem usums_traj (p : Prior) (th : Int) :
    Implements.Traj ⟨.unboundedSums, .ord th, some p⟩ l ((fun _ => 0), priorOf l p) (usumsResc l)
      (fun q => (q.1, sumTrust l q.2)) (fun k => ⟨k, none, kept l (priorOf l p) k⟩) := by
  refine ⟨rfl, ?_⟩
  intro k
  obtain ⟨a, b, ha, hb, h⟩ := usumsResc_iterate (l := l) (priorOf l p) k
  rw [h]
  simp only [sumTrust_smul]
  have e1 : rankingVector (repS l fun s => a * (usums l (priorOf l p) k).1 s) =
      .ok ((sources l).map (rank (allSources l) (usums l (priorOf l p) k).1)) := by
    unfold repS
    rw [rankingVector_fin, sources_toFinset]
    congr 1
    exact List.map_congr_left fun s _ => rank_smul _ _ ha s
  have e2 : rankingVector (repS l fun s => b * sumTrust l (usums l (priorOf l p) k).2 s) =
      .ok ((sources l).map (rank (allSources l) (usums l (priorOf l p) (k + 1)).1)) := by
    unfold repS
    rw [rankingVector_fin, sources_toFinset]
    congr 1
    have hu : (usums l (priorOf l p) (k + 1)).1 = sumTrust l (usums l (priorOf l p) k).2 := by
      unfold usums; rw [Function.iterate_succ_apply']; rfl
    rw [hu]
    exact List.map_congr_left fun s _ => rank_smul _ _ hb s
  have := ranks_eq_iff (sources l) (usums l (priorOf l p) k).1 (usums l (priorOf l p) (k + 1)).1
  rw [sources_toFinset] at this
  simp only [IterCfg.compare, e1, e2, bind, Except.bind, pure, Except.pure, kept]
  by_cases hs : SameOrder (allSources l) (usums l (priorOf l p) k).1 (usums l (priorOf l p) (k + 1)).1
  · rw [if_pos (this.2 hs), if_pos hs]
  · rw [if_neg (fun e => hs (this.1 e)), if_neg hs]

theorem usums_finished (p : Prior) (th : Int) (k : Nat) :
    ((IterCfg.ord th : IterCfg Ex).finished ⟨k, none, kept l (priorOf l p) k⟩ = .ok true ↔
      Settled l (priorOf l p) th k) ∧
    ((IterCfg.ord th : IterCfg Ex).finished ⟨k, none, kept l (priorOf l p) k⟩ = .ok false ↔
      ¬ Settled l (priorOf l p) th k) := by
  simp only [IterCfg.finished, Except.ok.injEq, decide_eq_true_eq, decide_eq_false_iff_not,
    kept_iff, and_self]

theorem usums_finish (p : Prior) (th : Int) (k : Nat) :
    (⟨.unboundedSums, .ord th, some p⟩ : AlgCfg Ex).finish
      (repS l ((usumsResc l)^[k] ((fun _ => 0), priorOf l p)).1)
      (repC l ((usumsResc l)^[k] ((fun _ => 0), priorOf l p)).2) =
    .ok (repS l (ranks l (usums l (priorOf l p) k)).1, repC l (ranks l (usums l (priorOf l p) k)).2) := by
  obtain ⟨a, b, ha, hb, h⟩ := usumsResc_iterate (l := l) (priorOf l p) k
  rw [h]
  have e1 : rankingVector (repS l fun s => a * (usums l (priorOf l p) k).1 s) =
      .ok ((sources l).map (rank (allSources l) (usums l (priorOf l p) k).1)) := by
    unfold repS
    rw [rankingVector_fin, sources_toFinset]
    congr 1
    exact List.map_congr_left fun s _ => rank_smul _ _ ha s
  have e2 : rankingVector (repC l fun c => b * (usums l (priorOf l p) k).2 c) =
      .ok ((claims l).map (rank (allClaims l) (usums l (priorOf l p) k).2)) := by
    unfold repC
    rw [rankingVector_fin, claims_toFinset]
    congr 1
    exact List.map_congr_left fun s _ => rank_smul _ _ hb s
  simp only [AlgCfg.finish, e1, e2, bind, Except.bind, pure, Except.pure]
  simp only [repS, repC, ranks, List.map_map, Function.comp_def, ofNat_eq]

end TD
