import Verif.Props.Accuracy
import Verif.Props.Range
import Verif.Props.Unbounded
/-!
# C14: when the accuracy of a run is defined

Which variables count does not depend on the algorithm: those with a known true value for which the
dataset has two different claims.
-/

namespace TD
open Spec
attribute [-instance] instBEqProd

variable {S V X : Type} [DecidableEq S] [DecidableEq V] [DecidableEq X] {R : Rounding}

theorem beliefDict_inner {α : Type} (D : Dataset S V X α) (y : Vec α)
    (b : Dict V (Dict X α)) (h : D.beliefDict y = .ok b) :
    ∀ v d, b.get? v = some d → d.keys.Nodup := by
  unfold Dataset.beliefDict at h
  have key : ∀ (L : List (Nat × α)) (acc b : Dict V (Dict X α)),
      (∀ v d, acc.get? v = some d → d.keys.Nodup) →
      L.foldlM (fun acc p => do
        let c ← D.claimIds.inv p.1
        let var ← D.varIds.inv c.1
        let val ← D.valHashes.inv c.2
        let acc := if acc.has var then acc else acc.set var []
        return acc.set var (((acc.get? var).getD []).set val p.2)) acc = .ok b →
      ∀ v d, b.get? v = some d → d.keys.Nodup := by
    intro L
    induction L with
    | nil => intro acc b hacc hb; cases hb; exact hacc
    | cons p L ih =>
      intro acc b hacc hb
      rw [List.foldlM_cons] at hb
      simp only [bind, Except.bind] at hb
      cases hc : D.claimIds.inv p.1 with
      | error e => rw [hc] at hb; cases hb
      | ok c =>
        rw [hc] at hb
        dsimp only at hb
        cases hv : D.varIds.inv c.1 with
        | error e => rw [hv] at hb; cases hb
        | ok var =>
          rw [hv] at hb
          dsimp only at hb
          cases hx : D.valHashes.inv c.2 with
          | error e => rw [hx] at hb; cases hb
          | ok val =>
            rw [hx] at hb
            have hacc' : ∀ v d, (if acc.has var then acc else acc.set var []).get? v = some d → d.keys.Nodup := by
              intro v d
              split
              · exact hacc v d
              · rw [get?_set]
                split
                · intro hd; cases hd; simp [Dict.keys]
                · exact hacc v d
            refine ih _ b ?_ hb
            intro v d
            rw [get?_set]
            split
            · intro hd
              cases hd
              refine nodup_set ?_ _ _
              cases hg : (if acc.has var then acc else acc.set var []).get? var with
              | none => simp [Dict.keys]
              | some d => exact hacc' var d hg
            · exact hacc' v d
  exact key _ [] b (by simp [Dict.get?]) h

theorem runs_inner {α : Type} [Arith α] (a : AnyAlg α) (D : Dataset S V X α) (fuel : Nat)
    (clock : Nat → α) (r : Result S V X α) (h : a.run D fuel clock = .ok r) :
    ∀ v d, r.belief.get? v = some d → d.keys.Nodup := by
  cases a with
  | voting =>
    simp only [AnyAlg.run, votingRun, bind, Except.bind, pure, Except.pure] at h
    split at h; · cases h
    split at h; · cases h
    split at h; · cases h
    split at h; · cases h
    rename_i b hb
    cases h
    exact beliefDict_inner D _ _ hb
  | iter c =>
    simp only [AnyAlg.run, AlgCfg.run, bind, Except.bind, pure, Except.pure] at h
    split at h; · cases h
    split at h; · cases h
    split at h; · cases h
    rename_i b hb
    cases h
    exact beliefDict_inner D _ _ hb

theorem runs_complete {l : List (S × V × X)} {am : Bool} {f : Option (V → X → X → Option (FP R))}
    {d : Dataset S V X (FP R)} (hd : Dataset.mk' l am f = .ok d) {a : AnyAlg (FP R)} {fuel : Nat} {clock : Nat → FP R}
    {r : Result S V X (FP R)} (h : a.run d fuel clock = .ok r) : Complete l r := by
  cases a with
  | voting => exact (C76_voting l am f _ hd clock r h).1
  | iter c =>
    obtain rfl := ((mk'_ok_iff l one_ne_zero_fp am f d).1 hd).1
    simp only [AnyAlg.run] at h
    rw [run_eq] at h
    cases he : c.exec (matsOf l f) fuel {} with
    | error e => rw [he] at h; cases h
    | ok out =>
      rw [he] at h
      cases h
      exact complete_sized (exec_sized (matsOf_wf l f) he).1 _ _

theorem isSome_get? {K β : Type} [DecidableEq K] (e : Dict K β) (k : K) : (e.get? k).isSome = true ↔ k ∈ e.keys := by
  unfold Dict.get? Dict.keys
  induction e with
  | nil => simp
  | cons q e ih =>
    rw [List.lookup_cons, List.map_cons, List.mem_cons]
    by_cases hk : k = q.1
    · subst hk; simp
    · simp [hk, beq_eq_false_iff_ne.2 hk, ih]

/-- The variables counted are the known ones with two different claims. -/
theorem counted_runs {l : List (S × V × X)} {am : Bool} {f : Option (V → X → X → Option (FP R))}
    {d : Dataset S V X (FP R)} (hd : Dataset.mk' l am f = .ok d) {a : AnyAlg (FP R)} {fuel : Nat} {clock : Nat → FP R}
    {r : Result S V X (FP R)} (h : a.run d fuel clock = .ok r) (values : Dict V X) (p : V × X) :
    p ∈ counted r values ↔ p ∈ values ∧ ∃ x y, x ≠ y ∧ (p.1, x) ∈ allClaims l ∧ (p.1, y) ∈ allClaims l := by
  have hc := (runs_complete hd h).2 p.1
  have hs := (C51_runs a d fuel clock r h).2 p.1
  have hi := runs_inner a d fuel clock r h p.1
  simp only [counted, List.mem_filter]
  refine and_congr_right fun _ => ?_
  cases hg : r.belief.get? p.1 with
  | none =>
    simp only [hg, Option.bind_none, Option.isSome_none, Bool.false_eq_true, false_iff] at hc
    simp only [Bool.false_eq_true, false_iff, not_exists, not_and]
    intro x _ _ hx
    exact absurd hx (hc x)
  | some e =>
    have hc' : ∀ x, x ∈ Dict.keys e ↔ (p.1, x) ∈ allClaims l := by
      intro x
      rw [← hc x, hg, Option.bind_some]
      exact (isSome_get? e x).symm
    have hn := hi e hg
    have hne := hs e hg
    simp only [decide_eq_true_eq]
    have hlen : e.length = (Dict.keys e).length := by simp [Dict.keys]
    simp only [← hc']
    rw [hlen]
    generalize hk : Dict.keys e = ks at *
    constructor
    · intro h1
      match ks, hn, h1 with
      | [], _, _ =>
        exfalso
        apply hne
        simpa [Dict.keys] using hk
      | x :: y :: rest, hn, _ =>
        refine ⟨x, y, ?_, by simp, by simp⟩
        rintro rfl
        simp at hn
    · rintro ⟨x, y, hxy, hx, hy⟩ h1
      obtain ⟨z, rfl⟩ := List.length_eq_one_iff.1 h1
      rw [List.mem_singleton] at hx hy
      exact hxy (hx.trans hy.symm)

/-- **C14.** Whether the accuracy of a run is defined does not depend on the algorithm, its parameters or the
rounding: it is defined (a number in `[0, 1]`) iff for some variable with a known true value the dataset has two
different claims; otherwise `get_accuracy` raises `ValueError`. -/
theorem C14_runs (l : List (S × V × X)) (am : Bool) (f : Option (V → X → X → Option (FP R)))
    (d : Dataset S V X (FP R)) (hd : Dataset.mk' l am f = .ok d) (a : AnyAlg (FP R)) (fuel : Nat) (clock : Nat → FP R)
    (r : Result S V X (FP R)) (h : a.run d fuel clock = .ok r) (values : Dict V X) (pick : Nat → Nat → Nat) :
    ((∃ p ∈ values, ∃ x y, x ≠ y ∧ (p.1, x) ∈ allClaims l ∧ (p.1, y) ∈ allClaims l) →
      ∃ acc, getAccuracy values pick r = .ok acc ∧ acc ≠ FP.nan ∧ 0 ≤ FP.val acc ∧ FP.val acc ≤ 1) ∧
    ((¬ ∃ p ∈ values, ∃ x y, x ≠ y ∧ (p.1, x) ∈ allClaims l ∧ (p.1, y) ∈ allClaims l) →
      getAccuracy values pick r = .error .valueError) := by
  have hs : ∀ p ∈ values, ∀ e, r.belief.get? p.1 = some e → e ≠ [] := fun p _ e =>
    (C51_runs a d fuel clock r h).2 p.1 e
  obtain ⟨h1, h2⟩ := C14_any r values hs pick
  have hc := counted_runs hd h values
  constructor
  · rintro ⟨p, hp, x, y, hxy⟩
    have : counted r values ≠ [] := List.ne_nil_of_mem ((hc p).2 ⟨hp, x, y, hxy⟩)
    obtain ⟨chosen, acc, -, h3, -, h4⟩ := h2 this
    exact ⟨acc, h3, h4⟩
  · intro hno
    refine h1.2 (List.eq_nil_iff_forall_not_mem.2 fun p hp => hno ?_)
    obtain ⟨a, b⟩ := (hc p).1 hp
    exact ⟨p, a, b⟩

example : ∃ (d : Dataset Nat Nat Nat Ex) (r : Result Nat Nat Nat Ex),
    Dataset.mk' [(0, 0, 1), (1, 0, 2), (1, 1, 3)] false none = .ok d ∧ AnyAlg.voting.run d 10 (fun _ => Ex.fin 0) = .ok r ∧
    (∃ acc, getAccuracy [(0, 1), (1, 3)] (fun _ _ => 0) r = .ok acc) ∧
    getAccuracy [(1, 3)] (fun _ _ => 0) r = .error .valueError := by
  obtain ⟨d, hd⟩ := exists_dataset [(0, 0, 1), (1, 0, 2), (1, 1, 3)] (by decide)
  obtain ⟨r, hr, -⟩ := C29_voting _ false none d hd (by simp) (fun _ => Ex.fin 0)
  have h := C14_runs _ _ _ _ hd .voting 10 (fun _ => Ex.fin 0) r hr
  refine ⟨d, r, hd, hr, ?_, (h [(1, 3)] _).2 ?_⟩
  swap
  · rintro ⟨p, hp, x, y, hxy, hx, hy⟩
    obtain rfl := List.mem_singleton.1 hp
    have hall : ∀ c ∈ allClaims [(0, 0, 1), (1, 0, 2), (1, 1, 3)], c.1 = 1 → c.2 = 3 := by decide
    exact hxy ((hall _ hx rfl).trans (hall _ hy rfl).symm)
  obtain ⟨acc, ha, -⟩ := (h [(0, 1), (1, 3)] (fun _ _ => 0)).1 ⟨(0, 1), by simp, 1, 2, by decide, by decide, by decide⟩
  exact ⟨acc, ha⟩

end TD
