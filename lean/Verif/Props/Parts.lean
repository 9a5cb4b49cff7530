import Verif.Props.Part
import Verif.Props.Unbounded
import Verif.Props.Coherence
import Verif.Spec.Support
/-!
# C70: UnboundedSums and CRH on independent parts
-/

namespace TD
open Spec Ex
attribute [-instance] instBEqProd

variable {S V X : Type} [DecidableEq S] [DecidableEq V] [DecidableEq X]
variable {l l' : List (S × V × X)}

theorem part_sources (h : Part l' l) {s : S} (hs : s ∈ allSources l') : s ∈ allSources l := by
  simp only [allSources, List.mem_toFinset, List.mem_map] at hs ⊢
  obtain ⟨t, ht, e⟩ := hs
  exact ⟨t, h.sub t ht, e⟩

theorem part_claims (h : Part l' l) {c : V × X} (hc : c ∈ allClaims l') : c ∈ allClaims l := by
  simp only [allClaims, List.mem_toFinset, List.mem_map] at hc ⊢
  obtain ⟨t, ht, e⟩ := hc
  exact ⟨t, h.sub t ht, e⟩

/-- Unnormalised sums do not notice the rest of the dataset at all. -/
theorem usums_part (h : Part l' l) (p : Prior) (k : Nat) :
    Prop2 l' 1 1 (usums l (priorOf l p) k) (usums l' (priorOf l' p) k) := by
  induction k with
  | zero =>
    exact ⟨fun s _ => (one_mul _).symm, fun c hc => (h.priorOf p hc).trans (one_mul _).symm⟩
  | succ k ih =>
    unfold usums at ih ⊢
    rw [Function.iterate_succ_apply', Function.iterate_succ_apply']
    have ht := fun s hs => sumTrust_prop h ih.2 (s := s) hs
    exact ⟨ht, fun c hc => sumBelief_prop h ht hc⟩

theorem settled_part (h : Part l' l) {p : Prior} {th : Int} {k : Nat} (hs : Settled l (priorOf l p) th k) :
    Settled l' (priorOf l' p) th k := by
  refine ⟨hs.1, fun i hi hk s hs1 s' hs2 => ?_⟩
  have e := usums_part h p i
  have e' := usums_part h p (i + 1)
  have := hs.2 i hi hk s (part_sources h hs1) s' (part_sources h hs2)
  rw [e.1 s ((mem_allSources l').1 hs1), e.1 s' ((mem_allSources l').1 hs2), e'.1 s ((mem_allSources l').1 hs1),
    e'.1 s' ((mem_allSources l').1 hs2)] at this
  simpa only [one_mul] using this

/-- **C70.** UnboundedSums on a dataset and on an independent part of it alone, with the same threshold and prior:
on the part alone it takes at most as many iterations, and if it takes as many then the sources, and the claims,
of the part are ranked in the same way. -/
theorem C70_unbounded_sums (h : Part l' l) (hl : l' ≠ []) {am am' : Bool} {f f' : Option (V → X → X → Option Ex)}
    {d d' : Dataset S V X Ex} (hd : Dataset.mk' l am f = .ok d) (hd' : Dataset.mk' l' am' f' = .ok d')
    {th : Int} {p : Prior} {fuel fuel' : Nat} {clock clock' : Nat → Ex} {st st' : IterState Ex}
    {r r' : Result S V X Ex} (hr : AlgCfg.run ⟨.unboundedSums, .ord th, some p⟩ d fuel clock st = .ok r)
    (hr' : AlgCfg.run ⟨.unboundedSums, .ord th, some p⟩ d' fuel' clock' st' = .ok r') :
    ∃ k k', r.iterations = some k ∧ r'.iterations = some k' ∧ k' ≤ k ∧ (k' = k → RankedAlike l' r r') := by
  obtain ⟨k, e, hrep, hs, -⟩ := C37_unbounded_sums l am f d hd (h.ne_nil hl h) th p fuel clock st r hr
  obtain ⟨k', e', hrep', -, hb'⟩ := C37_unbounded_sums l' am' f' d' hd' hl th p fuel' clock' st' r' hr'
  refine ⟨k, k', e, e', not_lt.1 fun hlt => hb' k hlt (settled_part h hs), ?_⟩
  rintro rfl
  have hp := usums_part h p k'
  constructor
  · intro s hs s' hs'
    refine ⟨_, _, _, _, by rw [TrustIn, hrep.1, if_pos (part_sources h hs)],
      by rw [TrustIn, hrep.1, if_pos (part_sources h hs')], by rw [TrustIn, hrep'.1, if_pos hs],
      by rw [TrustIn, hrep'.1, if_pos hs'], ?_⟩
    simp only [ranks, Nat.cast_lt]
    rw [rank_lt_rank (part_sources h hs), rank_lt_rank hs, hp.1 s ((mem_allSources l').1 hs),
      hp.1 s' ((mem_allSources l').1 hs'), one_mul, one_mul]
  · intro c hc c' hc'
    refine ⟨_, _, _, _, by rw [BeliefIn, hrep.2, if_pos (part_claims h hc)],
      by rw [BeliefIn, hrep.2, if_pos (part_claims h hc')], by rw [BeliefIn, hrep'.2, if_pos hc],
      by rw [BeliefIn, hrep'.2, if_pos hc'], ?_⟩
    simp only [ranks, Nat.cast_lt]
    rw [rank_lt_rank (part_claims h hc), rank_lt_rank hc, hp.2 c ((mem_allClaims l').1 hc),
      hp.2 c' ((mem_allClaims l').1 hc'), one_mul, one_mul]

/-- Three sources, of which one disagrees with the other two. -/
def dissent : List (Nat × Nat × Nat) := [(0, 0, 0), (0, 1, 0), (1, 0, 1), (2, 0, 0), (2, 1, 0)]

/-- ... and three more sources, which claim something unrelated. -/
def dissentMore : List (Nat × Nat × Nat) := dissent ++ [(3, 2, 0), (4, 2, 0), (5, 2, 0)]

/-- The additional claims are independent of the others. -/
theorem dissent_part : Part dissent dissentMore := by
  constructor <;> decide

/-- The hypotheses of `C70_unbounded_sums` (both runs return by C38). -/
example : Part dissent dissentMore ∧ dissent ≠ [] ∧ NoRepeats dissent ∧ NoRepeats dissentMore :=
  ⟨dissent_part, by decide, by decide, by decide⟩

/-- **C70**, limits: CRH is different: sources which have nothing to do with the others can reverse the order of
the trust in these, whatever the tolerance.  Source 1, which contradicts the others, has less trust than source 0 in
the part, and more trust in the whole dataset. -/
theorem C70_crh_differs {eps : ℝ} (h0 : 0 < eps) (pr : Option Prior) (clock clock' : Nat → Ex) :
    ∃ (d d' : Dataset Nat Nat Nat Ex) (r r' : Result Nat Nat Nat Ex),
      Dataset.mk' dissentMore false none = .ok d ∧ Dataset.mk' dissent false none = .ok d' ∧
      (⟨.crh (fin eps), .fixed 1, pr⟩ : AlgCfg Ex).run d 2 clock {} = .ok r ∧
      (⟨.crh (fin eps), .fixed 1, pr⟩ : AlgCfg Ex).run d' 2 clock' {} = .ok r' ∧
      (∃ t t' : ℝ, TrustIn r 0 t ∧ TrustIn r 1 t' ∧ t < t') ∧
      ∃ t t' : ℝ, TrustIn r' 0 t ∧ TrustIn r' 1 t' ∧ t' < t := by
  obtain ⟨d, hd⟩ := exists_dataset dissentMore (by decide)
  obtain ⟨d', hd'⟩ := exists_dataset dissent (by decide)
  obtain ⟨r, hr, -, p⟩ := (C36_crh _ _ none d hd (by decide) (.fixed 1) pr eps h0).2.2 1 2 clock {} (by norm_num)
  obtain ⟨r', hr', -, p'⟩ := (C36_crh _ _ none d' hd' (by decide) (.fixed 1) pr eps h0).2.2 1 2 clock' {}
    (by norm_num)
  have key : ∀ (l : List (Nat × Nat × Nat)) (b : Nat × Nat → ℝ) (x y : Nat), x ∈ allSources l →
      loss l b x < loss l b y → eps - Real.log ((eps + loss l b y) / ∑ r ∈ allSources l, (eps + loss l b r)) <
        eps - Real.log ((eps + loss l b x) / ∑ r ∈ allSources l, (eps + loss l b r)) := by
    intro l b x y hx hxy
    have hpos : ∀ s, 0 < eps + loss l b s := fun s =>
      add_pos_of_pos_of_nonneg h0 (Finset.sum_nonneg fun _ _ => Finset.sum_nonneg fun _ _ => sq_nonneg _)
    have hsum : 0 < ∑ r ∈ allSources l, (eps + loss l b r) := Finset.sum_pos (fun s _ => hpos s) ⟨x, hx⟩
    have := Real.log_lt_log (div_pos (hpos x) hsum) (div_lt_div_of_pos_right (add_lt_add_right hxy eps) hsum)
    linarith
  have hin : ∀ s ∈ allSources dissentMore, TrustIn r s _ := fun s hs => (p.1 s).trans (if_pos hs)
  have hin' : ∀ s ∈ allSources dissent, TrustIn r' s _ := fun s hs => (p'.1 s).trans (if_pos hs)
  refine ⟨d, d', r, r', hd, hd', hr, hr', ⟨_, _, hin 0 (by decide), hin 1 (by decide), key dissentMore _ 1 0 (by decide) ?_⟩,
    ⟨_, _, hin' 0 (by decide), hin' 1 (by decide), key dissent _ 0 1 (by decide) ?_⟩⟩
  · simp only [loss, Function.iterate_zero, id_eq, nSources]
    rw [show claimsOf dissentMore 0 = {(0, 0), (1, 0)} by decide, show claimsOf dissentMore 1 = {(0, 1)} by decide,
      Finset.sum_pair (by decide), Finset.sum_singleton, show rivals dissentMore (0, 0) = {(0, 0), (0, 1)} by decide,
      show rivals dissentMore (0, 1) = {(0, 0), (0, 1)} by decide, show rivals dissentMore (1, 0) = {(1, 0)} by decide,
      Finset.sum_pair (by decide), Finset.sum_pair (by decide), Finset.sum_singleton,
      show (sourcesOf dissentMore (0, 0)).card = 2 by decide, show (sourcesOf dissentMore (0, 1)).card = 1 by decide,
      show (sourcesOf dissentMore (1, 0)).card = 2 by decide, show (allSources dissentMore).card = 6 by decide]
    norm_num
  · simp only [loss, Function.iterate_zero, id_eq, nSources]
    rw [show claimsOf dissent 0 = {(0, 0), (1, 0)} by decide, show claimsOf dissent 1 = {(0, 1)} by decide,
      Finset.sum_pair (by decide), Finset.sum_singleton, show rivals dissent (0, 0) = {(0, 0), (0, 1)} by decide,
      show rivals dissent (0, 1) = {(0, 0), (0, 1)} by decide, show rivals dissent (1, 0) = {(1, 0)} by decide,
      Finset.sum_pair (by decide), Finset.sum_pair (by decide), Finset.sum_singleton,
      show (sourcesOf dissent (0, 0)).card = 2 by decide, show (sourcesOf dissent (0, 1)).card = 1 by decide,
      show (sourcesOf dissent (1, 0)).card = 2 by decide, show (allSources dissent).card = 3 by decide]
    norm_num

end TD
