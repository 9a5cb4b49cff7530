import Verif.Lemmas.Rename
import Verif.Lemmas.Toy
import Verif.Lemmas.Exact
/-!
# C41: renaming sources, variables and values

For every arithmetic (`Arith α` has no laws), so also for floating point.
-/

namespace TD
open Spec
attribute [-instance] instBEqProd

variable {S V X S' V' X' α : Type} [DecidableEq S] [DecidableEq V] [DecidableEq X]
  [DecidableEq S'] [DecidableEq V'] [DecidableEq X'] [Arith α] (ρ : Renaming S V X S' V' X')

/-- The renamed exception. -/
def Spec.Renaming.err : DatasetErr S V → DatasetErr S' V'
  | .multiple s v => .multiple (ρ.source s) (ρ.var v)
  | .implication => .implication
  | .py e => .py e

omit [Arith α] in
theorem map_split {A B : Type} (g : A → B) (pre post : List A) (t : A) :
    (pre ++ t :: post).map g = pre.map g ++ g t :: post.map g := by simp

/-- **C41.** The constructor accepts the renamed triples exactly when it accepts
the original ones, and otherwise raises the same exception, about the renamed
source and variable. -/
theorem C41_constructor (h10 : Arith.eq (Arith.ofNat 1 : α) (Arith.ofNat 0) = false)
    (l : List (S × V × X)) (am : Bool) (f : Option (V → X → X → Option α))
    (f' : Option (V' → X' → X' → Option α)) (hf : ρ.Agrees f f') :
    ((∃ d : Dataset S V X α, Dataset.mk' l am f = .ok d) ↔
      ∃ d : Dataset S' V' X' α, Dataset.mk' (ρ.triples l) am f' = .ok d) ∧
    ∀ e, Dataset.mk' l am f = .error e → Dataset.mk' (ρ.triples l) am f' = .error (ρ.err e) := by
  constructor
  · constructor
    · rintro ⟨d, hd⟩
      have h := (mk'_ok_iff l h10 am f d).1 hd
      refine ⟨_, (mk'_ok_iff (ρ.triples l) h10 am f' _).2 ⟨rfl, ?_, ?_⟩⟩
      · rw [noRepeats_rename]; exact h.2.1
      · rw [optImpBad_rename ρ l hf]; exact h.2.2
    · rintro ⟨d, hd⟩
      have h := (mk'_ok_iff (ρ.triples l) h10 am f' d).1 hd
      refine ⟨_, (mk'_ok_iff l h10 am f _).2 ⟨rfl, ?_, ?_⟩⟩
      · rw [← noRepeats_rename ρ]; exact h.2.1
      · rw [← optImpBad_rename ρ l hf]; exact h.2.2
  · intro e he
    by_cases hn : am = true ∨ NoRepeats l
    · have hb : optImpBad l f := by
        by_contra hb
        rw [(mk'_ok_iff l h10 am f _).2 ⟨rfl, hn, hb⟩] at he
        simp at he
      have hn' : am = true ∨ NoRepeats (ρ.triples l) := by rw [noRepeats_rename]; exact hn
      have hb' := (optImpBad_rename ρ l hf).2 hb
      have run : ∀ {S V X : Type} [DecidableEq S] [DecidableEq V] [DecidableEq X]
          (l : List (S × V × X)), (am = true ∨ NoRepeats l) → Build.run am l = .ok (buildOf l) := by
        intro S V X _ _ _ l h
        cases am with
        | true => exact run_true l
        | false => exact run_false l (by simpa using h)
      cases f with
      | none => simp [optImpBad] at hb
      | some f =>
      cases f' with
      | none => simp [Renaming.Agrees] at hf
      | some f' =>
        have e1 := impMat_bad l h10 f hb
        have e2 := impMat_bad (ρ.triples l) h10 f' hb'
        simp only [Dataset.mk', run l hn, e1, bind, Except.bind] at he
        simp only [Dataset.mk', run _ hn', e2, bind, Except.bind]
        cases he; rfl
    · have ham : am = false := by cases am <;> simp_all
      subst ham
      have hn2 : ¬ NoRepeats l := by simpa using hn
      obtain ⟨pre, t, post, rfl, hp, u, hu, h1, h2⟩ := exists_first_dup l hn2
      have r1 := run_dup pre post t hp ⟨u, hu, h1, h2⟩
      have r2 := run_dup (ρ.triples pre) (ρ.triples post) (ρ.source t.1, ρ.var t.2.1, ρ.val t.2.1 t.2.2)
        ((noRepeats_rename ρ pre).2 hp)
        ⟨_, List.mem_map_of_mem hu, by simp [h1], by simp [h2]⟩
      simp only [Dataset.mk', r1, bind, Except.bind] at he
      have e3 : ρ.triples (pre ++ t :: post) =
          ρ.triples pre ++ (ρ.source t.1, ρ.var t.2.1, ρ.val t.2.1 t.2.2) :: ρ.triples post :=
        map_split _ pre post t
      rw [e3]
      simp only [Dataset.mk', r2, bind, Except.bind]
      cases he; rfl

/-- **C41.** `run` on the renamed dataset returns the renamed result, or raises
the same exception. -/
theorem C41_run (h10 : Arith.eq (Arith.ofNat 1 : α) (Arith.ofNat 0) = false)
    (l : List (S × V × X)) (am : Bool) (f : Option (V → X → X → Option α))
    (f' : Option (V' → X' → X' → Option α)) (hf : ρ.Agrees f f')
    (d : Dataset S V X α) (hd : Dataset.mk' l am f = .ok d)
    (d' : Dataset S' V' X' α) (hd' : Dataset.mk' (ρ.triples l) am f' = .ok d')
    (c : AlgCfg α) (fuel : Nat) (clock : Nat → α) (st : IterState α) :
    c.run d' fuel clock st = (c.run d fuel clock st).map ρ.result := by
  obtain ⟨rfl, -⟩ := (mk'_ok_iff l h10 am f d).1 hd
  obtain ⟨rfl, -⟩ := (mk'_ok_iff _ h10 am f' d').1 hd'
  rw [run_eq, run_eq, matsOf_rename ρ l hf]
  cases c.exec (matsOf l f) fuel st with
  | error e => rfl
  | ok r => simp [Except.map, resultOf_rename]

/-- **C41.** The same for every partial result. -/
theorem C41_run_iter (h10 : Arith.eq (Arith.ofNat 1 : α) (Arith.ofNat 0) = false)
    (l : List (S × V × X)) (am : Bool) (f : Option (V → X → X → Option α))
    (f' : Option (V' → X' → X' → Option α)) (hf : ρ.Agrees f f')
    (d : Dataset S V X α) (hd : Dataset.mk' l am f = .ok d)
    (d' : Dataset S' V' X' α) (hd' : Dataset.mk' (ρ.triples l) am f' = .ok d')
    (c : AlgCfg α) (fuel : Nat) (clock : Nat → α) (st : IterState α) :
    c.runIter d' fuel clock st = (c.runIter d fuel clock st).map fun rs => rs.map ρ.result := by
  obtain ⟨rfl, -⟩ := (mk'_ok_iff l h10 am f d).1 hd
  obtain ⟨rfl, -⟩ := (mk'_ok_iff _ h10 am f' d').1 hd'
  rw [runIter_eq, runIter_eq, matsOf_rename ρ l hf]
  cases c.exec (matsOf l f) fuel st with
  | error e => rfl
  | ok r => simp [Except.map, resultOf_rename, Function.comp_def]

/-- **C41.** The same for majority voting. -/
theorem C41_voting (h10 : Arith.eq (Arith.ofNat 1 : α) (Arith.ofNat 0) = false)
    (l : List (S × V × X)) (am : Bool) (f : Option (V → X → X → Option α))
    (f' : Option (V' → X' → X' → Option α)) (hf : ρ.Agrees f f')
    (d : Dataset S V X α) (hd : Dataset.mk' l am f = .ok d)
    (d' : Dataset S' V' X' α) (hd' : Dataset.mk' (ρ.triples l) am f' = .ok d')
    (clock : Nat → α) :
    votingRun d' clock = (votingRun d clock).map ρ.result := by
  obtain ⟨rfl, -⟩ := (mk'_ok_iff l h10 am f d).1 hd
  obtain ⟨rfl, -⟩ := (mk'_ok_iff _ h10 am f' d').1 hd'
  have hm : (datasetOf l f).mats = matsOf l f := rfl
  have hm' : (datasetOf (ρ.triples l) f').mats = matsOf l f := matsOf_rename ρ l hf
  unfold votingRun
  rw [hm, hm']
  by_cases h0 : (matsOf l f).numClaims = 0
  · simp [h0, bind, Except.bind, throw, throwThe, MonadExceptOf.throw, Except.map]
  · simp only [h0, if_false, bind, Except.bind, pure, Except.pure]
    cases npMax (sourceCounts (matsOf l f)) with
    | error e => rfl
    | ok mx =>
      have hs : Sized (matsOf l f) (ones (matsOf l f).numSources)
          ((sourceCounts (matsOf l f)).map (· /. mx)) := by
        refine ⟨by simp [ones], ?_⟩
        rw [sourceCounts_eq]; simp [matsOf]
      have hs' : Sized (matsOf (ρ.triples l) f') (ones (matsOf l f).numSources)
          ((sourceCounts (matsOf l f)).map (· /. mx)) := by
        rw [matsOf_rename ρ l hf]; exact hs
      obtain ⟨h1, h2⟩ := labels_ok l f hs
      obtain ⟨h3, h4⟩ := labels_ok (ρ.triples l) f' hs'
      simp only [h1, h2, h3, h4]
      simp only [Except.map, sources_rename, claims_rename, beliefOf_rename, Renaming.result]
      congr 2
      rw [List.zip_map_left]; rfl

/-- A renaming exists that is not the identity and changes the types. -/
def Toy.shift : Renaming Nat Nat Nat Nat Nat Int where
  source s := 2 * s + 1
  var v := v + 7
  val v x := v - (x : Int)
  source_inj := by omega
  var_inj := by omega
  val_inj := by omega

open Toy in
example : ∃ (d : Dataset Nat Nat Nat Int) (d' : Dataset Nat Nat Int Int),
    Dataset.mk' [(0, 0, 5), (1, 0, 6), (1, 1, 5)] false
      (some fun _ x y => if x < y then some 1 else none) = .ok d ∧
    Dataset.mk' (shift.triples [(0, 0, 5), (1, 0, 6), (1, 1, 5)]) false
      (some fun _ x y => if y < x then some 1 else none) = .ok d' ∧
    shift.Agrees (some fun _ x y => if x < y then some (1 : Int) else none)
      (some fun _ x y => if y < x then some 1 else none) := by
  have hb : ∀ {V X : Type} [DecidableEq V] [DecidableEq X] (l : List (Nat × V × X))
      (g : X → X → Prop) [∀ a b, Decidable (g a b)],
      ¬ optImpBad l (some fun _ x y => if g x y then some (1 : Int) else none) := by
    intro V X _ _ l g _
    rintro ⟨c, _, d, _, _, _, x, hx, hb⟩
    dsimp only at hx
    split at hx
    · cases hx; revert hb; decide
    · cases hx
  refine ⟨_, _, (mk'_ok_iff _ one_ne_zero _ _ _).2 ⟨rfl, Or.inr (by decide), hb _ _⟩,
    (mk'_ok_iff _ one_ne_zero _ _ _).2 ⟨rfl, Or.inr (by decide), hb _ _⟩, ?_⟩
  intro v x y
  simp [shift]

end TD
