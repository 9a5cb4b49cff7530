import Verif.Lemmas.Exact
import Verif.Spec.Reports

/-! Algorithms as iterations of label-level steps. -/

namespace TD
open Spec Ex
attribute [-instance] instBEqProd

variable {S V X : Type} [DecidableEq S] [DecidableEq V] [DecidableEq X]

/-- Vector of the trust scores. -/
def repS (l : List (S × V × X)) (t : S → ℝ) : Vec Ex := (sources l).map fun s => fin (t s)
/-- Vector of the belief scores. -/
def repC (l : List (S × V × X)) (b : V × X → ℝ) : Vec Ex := (claims l).map fun c => fin (b c)

/-- The algorithm computes the iterates of `step` from `init`, comparing `cmp`. -/
structure Implements (c : AlgCfg Ex) (l : List (S × V × X)) (f : Option (V → X → X → Option Ex))
    (init : Scores S V X) (step : Scores S V X → Scores S V X)
    (cmp : Scores S V X → (S → ℝ) × (S → ℝ)) (Inv : Scores S V X → Prop) : Prop where
  init_eq : c.init (matsOf l f) = .ok (repS l init.1, repC l init.2)
  inv_init : Inv init
  body_eq : ∀ p, Inv p → c.kind.body (matsOf l f) (repS l p.1) (repC l p.2) =
    .ok (some ⟨repS l (cmp p).1, repS l (cmp p).2, repS l (step p).1, repC l (step p).2⟩)
  inv_step : ∀ p, Inv p → Inv (step p)

variable {c : AlgCfg Ex} {l : List (S × V × X)} {f : Option (V → X → X → Option Ex)}
  {init : Scores S V X} {step : Scores S V X → Scores S V X}
  {cmp : Scores S V X → (S → ℝ) × (S → ℝ)} {Inv : Scores S V X → Prop}

namespace Implements

theorem inv_iterate (H : Implements c l f init step cmp Inv) (n : Nat) : Inv (step^[n] init) := by
  induction n with
  | zero => exact H.inv_init
  | succ n ih => rw [Function.iterate_succ_apply']; exact H.inv_step _ ih

theorem steps_aux (H : Implements c l f init step cmp Inv) {st : IterState Ex} {p : Scores S V X}
    (hp : Inv p) {n : Nat} {st' t b L}
    (h : Steps c.iterator (c.kind.body (matsOf l f)) st (repS l p.1) (repC l p.2) n st' t b L) :
    t = repS l (step^[n] p).1 ∧ b = repC l (step^[n] p).2 ∧
    ∀ i e, L[i]? = some e →
      e.trust = repS l (step^[i + 1] p).1 ∧ e.belief = repC l (step^[i + 1] p).2 := by
  generalize ht : repS l p.1 = t0 at h
  generalize hb : repC l p.2 = b0 at h
  induction h generalizing p with
  | refl => simp [ht, hb]
  | cons hf hbody hc hs ih =>
    subst ht hb
    rw [H.body_eq p hp] at hbody
    simp only [Except.ok.injEq, Option.some.injEq] at hbody
    subst hbody
    obtain ⟨h1, h2, h3⟩ := ih (H.inv_step p hp) rfl rfl
    refine ⟨h1, h2, ?_⟩
    intro i e he
    cases i with
    | zero => simp at he; subst he; exact ⟨rfl, rfl⟩
    | succ i =>
      simp only [List.getElem?_cons_succ] at he
      exact h3 i e he

/-- The algorithm never finishes early. -/
theorem no_early (H : Implements c l f init step cmp Inv) (n : Nat) :
    c.kind.body (matsOf l f) (repS l (step^[n] init).1) (repC l (step^[n] init).2) ≠ .ok none := by
  rw [H.body_eq _ (H.inv_iterate n)]; simp

/-- Characterisation of successful executions. -/
theorem exec_ok (H : Implements c l f init step cmp Inv) {fuel : Nat} {st : IterState Ex}
    {r : RunOut Ex} (h : c.exec (matsOf l f) fuel st = .ok r) :
    c.finish (repS l (step^[r.iterations] init).1) (repC l (step^[r.iterations] init).2) =
      .ok (r.trust, r.belief) ∧
    ∀ i e, r.log[i]? = some e →
      e.trust = repS l (step^[if c.kind.logsInit then i else i + 1] init).1 ∧
      e.belief = repC l (step^[if c.kind.logsInit then i else i + 1] init).2 := by
  obtain ⟨h0, t0, b0, n, st', t, b, L, hi, hn, hs, hst, hf, hit, hlog⟩ :=
    (exec_ok_iff c (matsOf l f) fuel st r).1 h
  rw [H.init_eq] at hi
  simp only [Except.ok.injEq, Prod.mk.injEq] at hi
  obtain ⟨rfl, rfl⟩ := hi
  obtain ⟨rfl, rfl, h3⟩ := H.steps_aux H.inv_init hs
  rw [hit]
  refine ⟨hf, ?_⟩
  intro i e he
  rw [hlog] at he
  unfold initLog at he
  cases hk : c.kind.logsInit with
  | true =>
    rw [hk] at he
    simp only [↓reduceIte, List.singleton_append] at he ⊢
    cases i with
    | zero => simp at he; subst he; exact ⟨rfl, rfl⟩
    | succ i => simp at he; exact h3 i e he
  | false =>
    rw [hk] at he
    simp only [Bool.false_eq_true, ↓reduceIte, List.nil_append] at he ⊢
    exact h3 i e he

end Implements

theorem get?_zip_map {ks : List S} (hnd : ks.Nodup) (F : S → Ex) (s : S) :
    Dict.get? (ks.zip (ks.map F)) s = if s ∈ ks then some (F s) else none := by
  have : ks.zip (ks.map F) = ks.map fun k => (k, F k) := by
    induction ks with
    | nil => rfl
    | cons k ks ih => simp only [List.map_cons, List.zip_cons_cons, ih (List.nodup_cons.1 hnd).2]
  rw [this]
  exact lookup_map_key ks F s

theorem reports_resultOf (l : List (S × V × X)) (p : Scores S V X) (time : Ex) (it : Option Nat) :
    Reports l (resultOf l (repS l p.1) (repC l p.2) time it) p := by
  constructor
  · intro s
    simp only [resultOf, repS]
    rw [get?_zip_map (nodup_sources l)]
    simp only [mem_allSources]
  · intro v x
    simp only [resultOf]
    by_cases h : (v, x) ∈ allClaims l
    · rw [if_pos h, mem_beliefOf (nodup_claims l)]
      rw [mem_allClaims] at h
      obtain ⟨j, hj⟩ := List.mem_iff_getElem?.1 h
      refine ⟨j, hj, ?_⟩
      simp [repC, hj]
    · rw [if_neg h, Option.eq_none_iff_forall_ne_some]
      intro a ha
      obtain ⟨j, hj, -⟩ := (mem_beliefOf (nodup_claims l)).1 ha
      exact h ((mem_allClaims l).2 (List.mem_of_getElem? hj))

namespace Implements

theorem run_reports (H : Implements c l f init step cmp Inv) (hk : c.kind ≠ .unboundedSums)
    {fuel : Nat} {clock : Nat → Ex} {st : IterState Ex} {r : Result S V X Ex}
    (h : c.run (datasetOf l f) fuel clock st = .ok r) :
    ∃ k, r.iterations = some k ∧ Reports l r (step^[k] init) := by
  rw [run_eq] at h
  cases he : c.exec (matsOf l f) fuel st with
  | error e => rw [he] at h; simp at h
  | ok out =>
    rw [he] at h
    simp only [Except.ok.injEq] at h
    subst h
    obtain ⟨h1, -⟩ := H.exec_ok he
    have hfin : ∀ t b, c.finish t b = .ok (t, b) := by
      intro t b
      unfold AlgCfg.finish
      cases hkk : c.kind <;> simp_all
    rw [hfin] at h1
    simp only [Except.ok.injEq, Prod.mk.injEq] at h1
    refine ⟨out.iterations, rfl, ?_⟩
    rw [← h1.1, ← h1.2]
    exact reports_resultOf _ _ _ _

theorem run_iter_reports (H : Implements c l f init step cmp Inv)
    {fuel : Nat} {clock : Nat → Ex} {st : IterState Ex} {rs : List (Result S V X Ex)}
    (h : c.runIter (datasetOf l f) fuel clock st = .ok rs) :
    ∀ i r, rs[i]? = some r →
      Reports l r (step^[if c.kind.logsInit then i else i + 1] init) := by
  rw [runIter_eq] at h
  cases he : c.exec (matsOf l f) fuel st with
  | error e => rw [he] at h; simp at h
  | ok out =>
    rw [he] at h
    simp only [Except.ok.injEq] at h
    subst h
    obtain ⟨-, h2⟩ := H.exec_ok he
    intro i r hr
    simp only [enum, List.map_map, List.getElem?_map, List.getElem?_zipIdx, Option.map_map,
      Option.map_eq_some_iff] at hr
    obtain ⟨e, he', rfl⟩ := hr
    obtain ⟨a1, a2⟩ := h2 i e he'
    simp only [Function.comp_apply]
    rw [a1, a2]
    exact reports_resultOf _ _ _ _

theorem numClaims_ne (hl : l ≠ []) : (matsOf l f).numClaims ≠ 0 := mt (numClaims_zero l f).1 hl

/-- With a fixed number of iterations the run succeeds. -/
theorem run_fixed (H : Implements c l f init step cmp Inv) (hk : c.kind ≠ .unboundedSums)
    (hl : l ≠ []) {N : Nat} (hit : c.iterator = .fixed N) {fuel : Nat} (hfuel : N < fuel)
    (clock : Nat → Ex) (st : IterState Ex) :
    ∃ r, c.run (datasetOf l f) fuel clock st = .ok r ∧ r.iterations = some N ∧
      Reports l r (step^[N] init) := by
  have hfin : ∀ t b, c.finish t b = .ok (t, b) := by
    intro t b
    unfold AlgCfg.finish
    cases hkk : c.kind <;> simp_all
  have hsteps : ∀ n, ∀ st : IterState Ex, ∀ p, Inv p → st.itCount + n ≤ N → ∃ st' L,
      Steps c.iterator (c.kind.body (matsOf l f)) st (repS l p.1) (repC l p.2) n st'
        (repS l (step^[n] p).1) (repC l (step^[n] p).2) L ∧ st'.itCount = st.itCount + n := by
    intro n
    induction n with
    | zero => intro st p _ _; exact ⟨st, [], .refl _ _ _, rfl⟩
    | succ n ih =>
      intro st p hp hn
      obtain ⟨st', L, h1, h2⟩ := ih { st with itCount := st.itCount + 1 } (step p)
        (H.inv_step p hp) (by simp; omega)
      refine ⟨st', _, .cons ?_ (H.body_eq p hp) ?_ h1, by rw [h2]; simp; omega⟩
      · rw [hit]; simp only [IterCfg.finished, Except.ok.injEq, decide_eq_false_iff_not]; omega
      · rw [hit]; rfl
  obtain ⟨st', L, h1, h2⟩ := hsteps N {} init H.inv_init (by simp)
  have hex : c.exec (matsOf l f) fuel st =
      .ok ⟨repS l (step^[N] init).1, repC l (step^[N] init).2, N,
        initLog c (repS l init.1) (repC l init.2) ++ L⟩ := by
    rw [exec_ok_iff]
    refine ⟨numClaims_ne hl, _, _, N, st', _, _, L, H.init_eq, hfuel, h1, .inl ?_, hfin _ _, rfl, rfl⟩
    rw [hit]; simp only [IterCfg.finished, Except.ok.injEq, decide_eq_true_eq]
    rw [h2]; simp
  refine ⟨_, by rw [run_eq, hex], rfl, ?_⟩
  exact reports_resultOf _ _ _ _

end Implements

theorem claims_ne {l : List (S × V × X)} (hl : l ≠ []) : claims l ≠ [] :=
  mt (claims_eq_nil l).1 hl

theorem sources_ne {l : List (S × V × X)} (hl : l ≠ []) : sources l ≠ [] := by
  obtain ⟨c, hc⟩ := List.exists_mem_of_ne_nil _ (claims_ne hl)
  obtain ⟨s, hs⟩ := sourcesOf_nonempty l hc
  exact List.ne_nil_of_mem (mem_sources_of_sourcesOf l hs)

theorem allClaims_nonempty {l : List (S × V × X)} (hl : l ≠ []) : (allClaims l).Nonempty := by
  obtain ⟨c, hc⟩ := List.exists_mem_of_ne_nil _ (claims_ne hl)
  exact ⟨c, (mem_allClaims l).2 hc⟩

theorem allSources_nonempty {l : List (S × V × X)} (hl : l ≠ []) : (allSources l).Nonempty := by
  obtain ⟨c, hc⟩ := List.exists_mem_of_ne_nil _ (sources_ne hl)
  exact ⟨c, (mem_allSources l).2 hc⟩

end TD
