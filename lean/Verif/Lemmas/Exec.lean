import Verif.Lemmas.Loop
import Verif.Lemmas.Mats

namespace TD
open Spec
variable {α : Type} [Arith α]

/-- Log entry for the initial state, if the class logs it. -/
def initLog (c : AlgCfg α) (t b : Vec α) : List (LogEntry α) :=
  if c.kind.logsInit then [⟨0, t, b⟩] else []

theorem exec_eq (c : AlgCfg α) (m : Mats α) (fuel : Nat) (st : IterState α) (h0 : m.numClaims ≠ 0) :
    c.exec m fuel st = match c.init m with
      | .error e => .error e
      | .ok (t0, b0) =>
        match loop c.iterator (c.kind.body m) fuel {} t0 b0 (initLog c t0 b0) with
        | .error e => .error e
        | .ok e => match c.finish e.trust e.belief with
          | .error e => .error e
          | .ok (t, b) => .ok ⟨t, b, e.st.itCount, e.log⟩ := by
  unfold AlgCfg.exec
  simp only [h0, ↓reduceIte, bind, Except.bind, pure, Except.pure, IterCfg.reset, initLog]
  cases c.init m with
  | error e => rfl
  | ok p =>
    obtain ⟨t0, b0⟩ := p
    simp only
    cases loop c.iterator (c.kind.body m) fuel {} t0 b0 (if c.kind.logsInit then [⟨0, t0, b0⟩] else []) with
    | error e => rfl
    | ok e =>
      simp only
      cases c.finish e.trust e.belief <;> rfl

theorem exec_empty (c : AlgCfg α) (m : Mats α) (fuel : Nat) (st : IterState α)
    (h0 : m.numClaims = 0) : c.exec m fuel st = .error .emptyDataset := by
  simp [AlgCfg.exec, h0, throw, throwThe, MonadExceptOf.throw, bind, Except.bind]

theorem exec_ok_iff (c : AlgCfg α) (m : Mats α) (fuel : Nat) (st : IterState α) (r : RunOut α) :
    c.exec m fuel st = .ok r ↔ m.numClaims ≠ 0 ∧ ∃ t0 b0 n st' t b L,
      c.init m = .ok (t0, b0) ∧ n < fuel ∧
      Steps c.iterator (c.kind.body m) {} t0 b0 n st' t b L ∧
      Stops c.iterator (c.kind.body m) st' t b ∧
      c.finish t b = .ok (r.trust, r.belief) ∧ r.iterations = n ∧
      r.log = initLog c t0 b0 ++ L := by
  by_cases h0 : m.numClaims = 0
  · simp [exec_empty c m fuel st h0, h0]
  · rw [exec_eq c m fuel st h0]
    simp only [ne_eq, h0, not_false_eq_true, true_and]
    cases hi : c.init m with
    | error e => simp
    | ok p =>
      obtain ⟨t0, b0⟩ := p
      simp only [Except.ok.injEq, Prod.mk.injEq]
      cases hl : loop c.iterator (c.kind.body m) fuel {} t0 b0 (initLog c t0 b0) with
      | error e =>
        simp only [reduceCtorEq, false_iff]
        rintro ⟨t0', b0', n, st', t, b, L, ⟨rfl, rfl⟩, hn, hs, hst, -, -, -⟩
        have := (loop_ok_iff fuel {} t0 b0 (initLog c t0 b0) ⟨st', t, b, initLog c t0 b0 ++ L⟩).2
          ⟨n, L, hn, hs, rfl, hst⟩
        rw [hl] at this; simp at this
      | ok e =>
        have hl' := (loop_ok_iff fuel {} t0 b0 (initLog c t0 b0) e).1 hl
        obtain ⟨n, L, hn, hs, hlog, hst⟩ := hl'
        have hit : e.st.itCount = n := by rw [hs.itCount]; simp
        simp only
        constructor
        · intro h
          refine ⟨t0, b0, n, e.st, e.trust, e.belief, L, ⟨rfl, rfl⟩, hn, hs, hst, ?_⟩
          cases hf : c.finish e.trust e.belief with
          | error er => rw [hf] at h; simp at h
          | ok p =>
            rw [hf] at h
            simp only [Except.ok.injEq] at h
            subst h
            exact ⟨rfl, hit, hlog⟩
        · rintro ⟨t0', b0', n', st', t, b, L', ⟨rfl, rfl⟩, hn', hs', hst', hf, hit', hlog'⟩
          have := (loop_ok_iff fuel {} t0 b0 (initLog c t0 b0) ⟨st', t, b, initLog c t0 b0 ++ L'⟩).2
            ⟨n', L', hn', hs', rfl, hst'⟩
          rw [hl] at this
          simp only [Except.ok.injEq] at this
          subst this
          rw [hf]
          cases r
          simp only [Except.ok.injEq, RunOut.mk.injEq, true_and]
          simp only at hit' hlog'
          refine ⟨?_, hlog'.symm⟩
          rw [hs'.itCount]; simp [hit']

/-! ### Which exceptions can occur where -/

theorem normalise_error {v : Vec α} {e : PyErr} (h : normalise v = .error e) : e = .valueError := by
  cases v with
  | nil => simp [normalise, pyMax, bind, Except.bind] at h; exact h.symm
  | cons x xs => simp [normalise, pyMax, bind, Except.bind, pure, Except.pure] at h

theorem npMax_error {v : Vec α} {e : PyErr} (h : npMax v = .error e) : e = .valueError := by
  cases v with
  | nil => simp [npMax] at h; exact h.symm
  | cons x xs => simp [npMax] at h

theorem normalise2_error {v w : Vec α} {g : Vec α → Vec α → Step α} {e : PyErr}
    (h : (do let a ← normalise v; let b ← normalise w; return some (g a b) :
      Except PyErr (Option (Step α))) = .error e) : e = .valueError := by
  simp only [bind, Except.bind, pure, Except.pure] at h
  cases hv : normalise v with
  | error e' => rw [hv] at h; simp at h; subst h; exact normalise_error hv
  | ok a =>
    rw [hv] at h
    cases hw : normalise w with
    | error e' => rw [hw] at h; simp at h; subst h; exact normalise_error hw
    | ok b => rw [hw] at h; simp at h

theorem body_error {k : Kind α} {m : Mats α} {t b : Vec α} {e : PyErr}
    (h : k.body m t b = .error e) : e = .valueError := by
  cases k with
  | sums => exact normalise2_error (g := fun a b => ⟨t, a, a, b⟩) h
  | averageLog => exact normalise2_error (g := fun a b => ⟨a, t, a, b⟩) h
  | investment g =>
    simp only [Kind.body, investBody] at h
    cases hu : updateTrust m t b with
    | none => rw [hu] at h; simp [pure, Except.pure] at h
    | some nt =>
      rw [hu] at h
      exact normalise2_error (g := fun a b => ⟨a, t, a, b⟩) h
  | pooledInvestment g =>
    simp only [Kind.body, pooledBody] at h
    cases hu : updateTrust m t b with
    | none => rw [hu] at h; simp [pure, Except.pure] at h
    | some nt =>
      rw [hu] at h
      exact normalise2_error (g := fun a b => ⟨a, t, a, b⟩) h
  | truthFinder rho gamma t0 =>
    simp only [Kind.body, tfBody] at h
    cases hl : logTrust t <;> simp [hl] at h
  | crh eps => simp [Kind.body, crhBody] at h
  | unboundedSums =>
    simp only [Kind.body, usumsBody, rescale, bind, Except.bind, pure, Except.pure] at h
    repeat' split at h
    all_goals first
      | (simp at h; done)
      | (rename_i hh; simp only [Except.error.injEq] at h; subst h; split at hh
         · rename_i h2; simp only [Except.error.injEq] at hh; subst hh; exact npMax_error h2
         · simp at hh)

/-- Only these classes can finish early. -/
theorem body_none {k : Kind α} {m : Mats α} {t b : Vec α} (h : k.body m t b = .ok none) :
    (∃ g, k = .investment g) ∨ (∃ g, k = .pooledInvestment g) ∨ ∃ r g t0, k = .truthFinder r g t0 := by
  cases k with
  | investment g => exact .inl ⟨g, rfl⟩
  | pooledInvestment g => exact .inr (.inl ⟨g, rfl⟩)
  | truthFinder r g t0 => exact .inr (.inr ⟨r, g, t0, rfl⟩)
  | sums =>
    simp only [Kind.body, sumsBody, bind, Except.bind, pure, Except.pure] at h
    repeat' split at h
    all_goals simp at h
  | averageLog =>
    simp only [Kind.body, avlogBody, bind, Except.bind, pure, Except.pure] at h
    repeat' split at h
    all_goals simp at h
  | crh eps => simp [Kind.body, crhBody] at h
  | unboundedSums =>
    simp only [Kind.body, usumsBody, bind, Except.bind, pure, Except.pure] at h
    repeat' split at h
    all_goals simp at h

theorem getDistance_error {ms : Option Measure} {v w : Vec α} {e : PyErr}
    (h : getDistance ms v w = .error e) : e = .valueError := by
  unfold getDistance at h
  split at h
  · simp at h
  · simp at h
  · exact npMax_error h
  · simp only at h; split at h <;> simp at h
  · simp at h; exact h.symm

theorem mapM_error {β γ : Type} {f : β → Except PyErr γ} {e0 : PyErr}
    (hf : ∀ x e, f x = .error e → e = e0) {l : List β} {e : PyErr}
    (h : l.mapM f = .error e) : e = e0 := by
  induction l with
  | nil => simp [pure, Except.pure] at h
  | cons x xs ih =>
    rw [List.mapM_cons] at h
    simp only [bind, Except.bind, pure, Except.pure] at h
    cases hx : f x with
    | error e' => rw [hx] at h; simp at h; subst h; exact hf x _ hx
    | ok y =>
      rw [hx] at h
      cases hxs : xs.mapM f with
      | error e' => rw [hxs] at h; simp at h; subst h; exact ih hxs
      | ok ys => rw [hxs] at h; simp at h

theorem rankingVector_error {v : Vec α} {e : PyErr} (h : rankingVector v = .error e) :
    e = .keyError := by
  unfold rankingVector at h
  refine mapM_error (e0 := .keyError) ?_ h
  intro x e he
  split at he <;> simp at he
  exact he.symm

theorem compare_error {c : IterCfg α} {st : IterState α} {v w : Vec α} {e : PyErr}
    (h : c.compare st v w = .error e) : e = .valueError ∨ e = .keyError := by
  cases c with
  | fixed => simp [IterCfg.compare] at h
  | conv ms th lim =>
    simp only [IterCfg.compare, bind, Except.bind, pure, Except.pure] at h
    split at h
    · rename_i hd; simp at h; subst h; exact .inl (getDistance_error hd)
    · simp at h
  | ord th =>
    simp only [IterCfg.compare, bind, Except.bind, pure, Except.pure] at h
    split at h
    · rename_i hd; simp at h; subst h; exact .inr (rankingVector_error hd)
    · split at h
      · rename_i hd; simp at h; subst h; exact .inr (rankingVector_error hd)
      · simp at h

theorem finished_error {c : IterCfg α} {st : IterState α} {e : PyErr}
    (h : c.finished st = .error e) : e = .convergence ∧ ∃ ms th lim, c = .conv ms th lim := by
  cases c with
  | fixed => simp [IterCfg.finished] at h
  | ord => simp [IterCfg.finished] at h
  | conv ms th lim =>
    refine ⟨?_, ms, th, lim, rfl⟩
    unfold IterCfg.finished at h
    simp only at h
    by_cases hd : st.below th = true
    · rw [if_pos hd] at h; simp at h
    · rw [if_neg hd] at h
      split at h <;> simp at h
      exact h.symm

theorem raises_error {c : AlgCfg α} {m : Mats α} {st : IterState α} {t b : Vec α} {e : PyErr}
    (h : Raises c.iterator (c.kind.body m) st t b e) :
    e = .convergence ∨ e = .valueError ∨ e = .keyError := by
  rcases h with h | ⟨-, h | ⟨s, -, h⟩⟩
  · exact .inl (finished_error h).1
  · exact .inr (.inl (body_error h))
  · exact .inr (compare_error h)

theorem prior_error {p : Option Prior} {m : Mats α} {e : PyErr} (h : priorBeliefs p m = .error e) :
    e = .valueError := by
  unfold priorBeliefs at h
  split at h <;> simp at h
  exact h.symm

theorem init_error {c : AlgCfg α} {m : Mats α} {e : PyErr} (h : c.init m = .error e) :
    e = .valueError := by
  unfold AlgCfg.init at h
  split at h
  all_goals first
    | (simp at h; done)
    | (simp only [bind, Except.bind, pure, Except.pure] at h
       split at h
       · rename_i hh; simp at h; subst h; exact prior_error hh
       · simp at h)

theorem finish_error {c : AlgCfg α} {t b : Vec α} {e : PyErr} (h : c.finish t b = .error e) :
    e = .keyError ∨ e = .attributeError := by
  unfold AlgCfg.finish at h
  split at h
  · split at h
    · simp only [bind, Except.bind, pure, Except.pure] at h
      split at h
      · rename_i hh; simp at h; subst h; exact .inl (rankingVector_error hh)
      · split at h
        · rename_i hh; simp at h; subst h; exact .inl (rankingVector_error hh)
        · simp at h
    · simp at h; exact .inr h.symm
  · simp at h

/-- The loop started by `exec` runs out of fuel only through that many passes. -/
theorem exec_error (c : AlgCfg α) (m : Mats α) (fuel : Nat) (st : IterState α) (e : PyErr)
    (h0 : m.numClaims ≠ 0) (h : c.exec m fuel st = .error e) :
    e ∈ [PyErr.valueError, .keyError, .attributeError, .convergence] ∨
    (e = .diverge ∧ ∃ t0 b0 st' t b L, c.init m = .ok (t0, b0) ∧
      Steps c.iterator (c.kind.body m) {} t0 b0 fuel st' t b L) := by
  rw [exec_eq c m fuel st h0] at h
  cases hi : c.init m with
  | error e' => rw [hi] at h; simp at h; subst h; simp [init_error hi]
  | ok p =>
    obtain ⟨t0, b0⟩ := p
    rw [hi] at h
    simp only at h
    cases hl : loop c.iterator (c.kind.body m) fuel {} t0 b0 (initLog c t0 b0) with
    | error e' =>
      rw [hl] at h
      simp only [Except.error.injEq] at h
      subst h
      rcases (loop_error_iff _ _ _ _ _ _).1 hl with ⟨rfl, st', t, b, L, hs⟩ | ⟨n, _, _, _, _, -, -, hr⟩
      · exact .inr ⟨rfl, t0, b0, st', t, b, L, rfl, hs⟩
      · left; rcases raises_error hr with rfl | rfl | rfl <;> simp
    | ok e' =>
      rw [hl] at h
      simp only at h
      cases hf : c.finish e'.trust e'.belief with
      | error e'' =>
        rw [hf] at h; simp at h; subst h
        left; rcases finish_error hf with rfl | rfl <;> simp
      | ok q => rw [hf] at h; simp at h

/-! ### Vector lengths -/

/-- Shapes of the matrices. -/
structure Mats.WF (m : Mats α) : Prop where
  sc : m.sc.rows.length = m.numSources
  scT : m.sc.ncols = m.numClaims
  mutEx : m.mutEx.rows.length = m.numClaims

theorem matsOf_wf {S V X : Type} [DecidableEq S] [DecidableEq V] [DecidableEq X]
    (l : List (S × V × X)) (f : Option (V → X → X → Option α)) : (matsOf l f).WF :=
  ⟨by simp [matsOf, Mat.ofFn], rfl, by simp [matsOf, Mat.ofFn]⟩

theorem length_mulVec (M : Mat α) (x : Vec α) : (M.mulVec x).length = M.rows.length := by
  simp [Mat.mulVec]

theorem length_T (M : Mat α) : M.T.rows.length = M.ncols := by simp [Mat.T]

theorem length_normalise {v w : Vec α} (h : normalise v = .ok w) : w.length = v.length := by
  simp only [normalise, bind, Except.bind, pure, Except.pure] at h
  split at h
  · simp at h
  · simp at h; subst h; simp

theorem length_rescale {v w : Vec α} (h : rescale v = .ok w) : w.length = v.length := by
  simp only [rescale, bind, Except.bind, pure, Except.pure] at h
  split at h
  · simp at h
  · simp at h; subst h; split <;> simp

/-- The vectors have the sizes of the dataset. -/
def Sized (m : Mats α) (t b : Vec α) : Prop := t.length = m.numSources ∧ b.length = m.numClaims

theorem prior_length {p : Option Prior} {m : Mats α} (hm : m.WF) {b : Vec α}
    (h : priorBeliefs p m = .ok b) : b.length = m.numClaims := by
  unfold priorBeliefs at h
  split at h <;> simp at h <;> subst h <;>
    simp [sourceCounts, vzip, length_mulVec, length_T, hm.scT, hm.mutEx]

theorem init_sized {c : AlgCfg α} {m : Mats α} (hm : m.WF) {t b : Vec α}
    (h : c.init m = .ok (t, b)) : Sized m t b := by
  unfold AlgCfg.init at h
  split at h
  all_goals first
    | (simp only [bind, Except.bind, pure, Except.pure] at h
       split at h
       · simp at h
       · rename_i hh
         simp only [Except.ok.injEq, Prod.mk.injEq] at h
         obtain ⟨rfl, rfl⟩ := h
         exact ⟨by simp [zeros, ones], prior_length hm hh⟩)
    | (simp only [Except.ok.injEq, Prod.mk.injEq] at h
       obtain ⟨rfl, rfl⟩ := h
       constructor <;> simp [zeros, sourceCounts, length_mulVec, length_T, hm.scT])

theorem updateTrust_length {m : Mats α} (hm : m.WF) {t b nt : Vec α} (ht : t.length = m.numSources)
    (h : updateTrust m t b = some nt) : nt.length = m.numSources := by
  simp only [updateTrust] at h
  split at h
  · simp at h
  · simp at h; subst h
    simp [vzip, claimCounts, length_mulVec, Mat.scaleCols, hm.sc, ht]

theorem normalise2_ok {v w : Vec α} {g : Vec α → Vec α → Step α} {s : Option (Step α)}
    (h : (do let a ← normalise v; let b ← normalise w; return some (g a b) :
      Except PyErr (Option (Step α))) = .ok s) :
    ∃ a b, normalise v = .ok a ∧ normalise w = .ok b ∧ s = some (g a b) := by
  simp only [bind, Except.bind, pure, Except.pure] at h
  cases hv : normalise v with
  | error e' => rw [hv] at h; simp at h
  | ok a =>
    rw [hv] at h
    cases hw : normalise w with
    | error e' => rw [hw] at h; simp at h
    | ok b => rw [hw] at h; simp at h; exact ⟨a, b, rfl, rfl, h.symm⟩

theorem body_sized {k : Kind α} {m : Mats α} (hm : m.WF) {t b : Vec α} {s : Step α}
    (ht : Sized m t b) (h : k.body m t b = .ok (some s)) : Sized m s.trust s.belief := by
  cases k with
  | sums =>
    obtain ⟨a, c, h1, h2, h3⟩ := normalise2_ok (g := fun a b => ⟨t, a, a, b⟩) h
    simp at h3; subst h3
    exact ⟨by simp [length_normalise h1, length_mulVec, hm.sc],
      by simp [length_normalise h2, length_mulVec, length_T, hm.scT]⟩
  | averageLog =>
    obtain ⟨a, c, h1, h2, h3⟩ := normalise2_ok (g := fun a b => ⟨a, t, a, b⟩) h
    simp at h3; subst h3
    exact ⟨by simp [length_normalise h1, vzip, avlogWeights, claimCounts, length_mulVec, hm.sc],
      by simp [length_normalise h2, length_mulVec, length_T, hm.scT]⟩
  | investment g =>
    simp only [Kind.body, investBody] at h
    cases hu : updateTrust m t b with
    | none => rw [hu] at h; simp [pure, Except.pure] at h
    | some nt =>
      rw [hu] at h
      obtain ⟨a, c, h1, h2, h3⟩ := normalise2_ok (g := fun a b => ⟨a, t, a, b⟩) h
      simp at h3; subst h3
      exact ⟨by simp [length_normalise h1, updateTrust_length hm ht.1 hu],
        by simp [length_normalise h2, length_mulVec, length_T, hm.scT]⟩
  | pooledInvestment g =>
    simp only [Kind.body, pooledBody] at h
    cases hu : updateTrust m t b with
    | none => rw [hu] at h; simp [pure, Except.pure] at h
    | some nt =>
      rw [hu] at h
      obtain ⟨a, c, h1, h2, h3⟩ := normalise2_ok (g := fun a b => ⟨a, t, a, b⟩) h
      simp at h3; subst h3
      exact ⟨by simp [length_normalise h1, updateTrust_length hm ht.1 hu],
        by simp [length_normalise h2, length_mulVec, length_T, hm.scT, vzip, hm.mutEx]⟩
  | truthFinder rho gamma t0 =>
    simp only [Kind.body, tfBody] at h
    cases hl : logTrust t with
    | none => simp [hl] at h
    | some tau =>
      simp [hl] at h; subst h
      exact ⟨by simp [length_mulVec, tfA, Mat.scaleRows, enum, hm.sc],
        by simp [length_mulVec, tfB]⟩
  | crh eps =>
    simp [Kind.body, crhBody] at h; subst h
    exact ⟨by simp [crhAlpha, hm.sc], by simp [length_mulVec, length_T, hm.scT]⟩
  | unboundedSums =>
    simp only [Kind.body, usumsBody, bind, Except.bind, pure, Except.pure] at h
    split at h
    · simp at h
    · rename_i h1
      split at h
      · simp at h
      · rename_i h2
        simp at h; subst h
        exact ⟨by simp [length_rescale h1, length_mulVec, hm.sc],
          by simp [length_rescale h2, length_mulVec, length_T, hm.scT]⟩

theorem Steps.sized {c : AlgCfg α} {m : Mats α} (hm : m.WF) {st : IterState α} {t b : Vec α}
    {n : Nat} {st1 t1 b1 L1} (h : Steps c.iterator (c.kind.body m) st t b n st1 t1 b1 L1)
    (ht : Sized m t b) : Sized m t1 b1 ∧ ∀ e ∈ L1, Sized m e.trust e.belief := by
  induction h with
  | refl => exact ⟨ht, by simp⟩
  | cons _ hb _ _ ih =>
    have hs := body_sized hm ht hb
    obtain ⟨i1, i2⟩ := ih hs
    refine ⟨i1, ?_⟩
    intro e he
    rcases List.mem_cons.1 he with rfl | he
    · exact hs
    · exact i2 e he

theorem rankingVector_length {v : Vec α} {r : List Nat} (h : rankingVector v = .ok r) :
    r.length = v.length := by
  unfold rankingVector at h
  simp only at h
  generalize rankLoop none 0 [] (npSort v) = mp at h
  induction v generalizing r with
  | nil => simp [pure, Except.pure] at h; subst h; rfl
  | cons x xs ih =>
    rw [List.mapM_cons] at h
    simp only [bind, Except.bind, pure, Except.pure] at h
    split at h
    · simp at h
    · split at h
      · simp at h
      · rename_i hh
        simp at h; subst h
        simp [ih hh]

theorem finish_sized {c : AlgCfg α} {m : Mats α} {t b t' b' : Vec α} (ht : Sized m t b)
    (h : c.finish t b = .ok (t', b')) : Sized m t' b' := by
  unfold AlgCfg.finish at h
  split at h
  · split at h
    · simp only [bind, Except.bind, pure, Except.pure] at h
      split at h
      · simp at h
      · rename_i h1
        split at h
        · simp at h
        · rename_i h2
          simp at h
          obtain ⟨rfl, rfl⟩ := h
          exact ⟨by simp [rankingVector_length h1, ht.1], by simp [rankingVector_length h2, ht.2]⟩
    · simp at h
  · simp at h; obtain ⟨rfl, rfl⟩ := h; exact ht

theorem initLog_sized {c : AlgCfg α} {m : Mats α} {t b : Vec α} (ht : Sized m t b) :
    ∀ e ∈ initLog c t b, Sized m e.trust e.belief := by
  intro e he
  unfold initLog at he
  split at he
  · simp at he; subst he; exact ht
  · simp at he

theorem exec_sized {c : AlgCfg α} {m : Mats α} (hm : m.WF) {fuel : Nat} {st : IterState α}
    {r : RunOut α} (h : c.exec m fuel st = .ok r) :
    Sized m r.trust r.belief ∧ ∀ e ∈ r.log, Sized m e.trust e.belief := by
  obtain ⟨-, t0, b0, n, st', t, b, L, hi, -, hs, -, hf, -, hlog⟩ := (exec_ok_iff c m fuel st r).1 h
  have h0 := init_sized hm hi
  obtain ⟨h1, h2⟩ := hs.sized hm h0
  refine ⟨finish_sized h1 hf, ?_⟩
  intro e he
  rw [hlog, List.mem_append] at he
  rcases he with he | he
  · exact initLog_sized h0 e he
  · exact h2 e he

end TD
