import Verif.Lemmas.Run
import Verif.Lemmas.Rel
import Verif.Spec.Runs

/-! When the loop body of an algorithm finishes early, in terms of results. -/

namespace TD
open Spec
attribute [-instance] instBEqProd

variable {S V X α : Type} [DecidableEq S] [DecidableEq V] [DecidableEq X] [Arith α]

theorem rowDot_addUp {B : Type} {bs : List B} {g : B → Option α} (P : B → Prop) [DecidablePred P]
    (hg : ∀ b ∈ bs, g b = if P b then some (Arith.ofNat 1) else none) (F : B → α) :
    rowDot bs g F = addUp ((bs.filter P).map F) := by
  unfold rowDot addUp
  rw [List.foldl_map]
  generalize (Arith.ofNat 0 : α) = a
  induction bs generalizing a with
  | nil => rfl
  | cons b bs ih =>
    have hb := hg b (by simp)
    rw [List.foldl_cons, List.filter_cons]
    by_cases h : P b
    · simp only [h, decide_true, if_true, List.foldl_cons]
      rw [ih fun x hx => hg x (by simp [hx])]
      simp [rowStep, hb, h]
    · simp only [h, decide_false]
      rw [ih fun x hx => hg x (by simp [hx])]
      simp [rowStep, hb, h]

theorem claimCounts_made (l : List (S × V × X)) (f : Option (V → X → X → Option α)) :
    claimCounts (matsOf l f) = (sources l).map fun s => claimsMade l s := by
  rw [claimCounts_eq]
  apply List.map_congr_left
  intro s _
  unfold claimsMade
  rw [rowDot_addUp (fun c => (s, c) ∈ recorded l) (fun c _ => by
    unfold scL oneIf; by_cases h : (s, c) ∈ recorded l <;> simp [h])]

theorem amounts_invested (l : List (S × V × X)) (f : Option (V → X → X → Option α)) {t : Vec α}
    (ht : t.length = (sources l).length) (b : Vec α) (time : α) (it : Option Nat) :
    (matsOf l f).sc.T.mulVec (vzip Arith.div t (claimCounts (matsOf l f))) =
      (claims l).map fun c => investedIn l (resultOf l t b time it) c := by
  have e : ∀ (ss : List S) (hn : ss.Nodup) (u : Vec α), u.length = ss.length →
      ∃ F : S → α, u = ss.map F := by
    intro ss
    induction ss with
    | nil => intro _ u hu; exact ⟨fun _ => Arith.ofNat 0, by simpa using hu⟩
    | cons s ss ih =>
      intro hn u hu
      cases u with
      | nil => simp at hu
      | cons x u =>
        obtain ⟨F, hF⟩ := ih (List.nodup_cons.1 hn).2 u (by simpa using hu)
        refine ⟨fun s' => if s' = s then x else F s', ?_⟩
        rw [List.map_cons, if_pos rfl]
        congr 1
        rw [hF]
        apply List.map_congr_left
        intro s' hs'
        rw [if_neg]
        rintro rfl
        exact (List.nodup_cons.1 hn).1 hs'
  obtain ⟨F, rfl⟩ := e (sources l) (nodup_sources l) t ht
  have hz : vzip Arith.div ((sources l).map F) (claimCounts (matsOf l f)) =
      (sources l).map fun s => F s /. claimsMade l s := by
    rw [claimCounts_made]
    unfold vzip
    rw [List.zipWith_map]
    generalize sources l = ss
    induction ss with
    | nil => rfl
    | cons s ss ih => simp [ih]
  rw [hz, scT_eq_ofRel, Mat.mulVec_ofRel]
  apply List.map_congr_left
  intro c _
  rw [rowDot_addUp (fun s => (s, c) ∈ recorded l) (fun s _ => by
    unfold scL oneIf; by_cases h : (s, c) ∈ recorded l <;> simp [h])]
  unfold investedIn resultOf
  simp only
  congr 1
  generalize sources l = ss
  induction ss with
  | nil => rfl
  | cons s ss ih =>
    simp only [List.map_cons, List.zip_cons_cons, List.filter_cons]
    by_cases h : (s, c) ∈ recorded l <;> simp [h, ih]

/-- A loop body finishes early exactly in the states the specification calls hopeless. -/
theorem body_none_iff (l : List (S × V × X)) (f : Option (V → X → X → Option α)) (k : Kind α) {t b : Vec α}
    (ht : t.length = (sources l).length) (time : α) (it : Option Nat) :
    k.body (matsOf l f) t b = .ok none ↔ CannotContinue l (resultOf l t b time it) k := by
  have hu : updateTrust (matsOf l f) t b = none ↔
      ∃ c ∈ claims l, Arith.eq (investedIn l (resultOf l t b time it) c) (Arith.ofNat 0) = true := by
    unfold updateTrust
    simp only
    rw [amounts_invested l f ht b time it]
    simp
  cases k with
  | sums => exact ⟨fun h => by simpa using body_none h, fun h => h.elim⟩
  | averageLog => exact ⟨fun h => by simpa using body_none h, fun h => h.elim⟩
  | crh e => exact ⟨fun h => by simpa using body_none h, fun h => h.elim⟩
  | unboundedSums => exact ⟨fun h => by simpa using body_none h, fun h => h.elim⟩
  | investment g =>
    rw [show CannotContinue l (resultOf l t b time it) (.investment g) ↔ _ from hu.symm]
    simp only [Kind.body, investBody]
    cases hh : updateTrust (matsOf l f) t b with
    | none => simp [pure, Except.pure]
    | some nt =>
      simp only [bind, Except.bind, pure, Except.pure]
      constructor
      · intro h
        repeat' split at h
        all_goals simp at h
      · intro h; simp at h
  | pooledInvestment g =>
    rw [show CannotContinue l (resultOf l t b time it) (.pooledInvestment g) ↔ _ from hu.symm]
    simp only [Kind.body, pooledBody]
    cases hh : updateTrust (matsOf l f) t b with
    | none => simp [pure, Except.pure]
    | some nt =>
      simp only [bind, Except.bind, pure, Except.pure]
      constructor
      · intro h
        repeat' split at h
        all_goals simp at h
      · intro h; simp at h
  | truthFinder rho gamma t0 =>
    have hz : ((sources l).zip t).map Prod.snd = t := List.map_snd_zip (by omega)
    have : (t.any fun x => Arith.eq x (Arith.ofNat 1)) = true ↔
        CannotContinue l (resultOf l t b time it) (.truthFinder rho gamma t0) := by
      unfold CannotContinue resultOf
      simp only
      rw [List.any_eq_true]
      constructor
      · rintro ⟨x, hx, h1⟩
        rw [← hz, List.mem_map] at hx
        obtain ⟨p, hp, rfl⟩ := hx
        exact ⟨p.1, p.2, hp, h1⟩
      · rintro ⟨s, x, hx, h1⟩
        exact ⟨x, by rw [← hz]; exact List.mem_map.2 ⟨_, hx, rfl⟩, h1⟩
    rw [← this]
    simp only [Kind.body, tfBody, logTrust]
    by_cases h : (t.any fun x => Arith.eq x (Arith.ofNat 1)) = true
    · simp [h]
    · simp [h]

end TD
