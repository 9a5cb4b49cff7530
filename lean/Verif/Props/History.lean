import Verif.Lemmas.History
import Verif.Spec.History
import Verif.Lemmas.Mats
import Verif.Lemmas.Toy
/-!
# C24, C25: runs and generators in arbitrary histories
-/

namespace TD
open Spec
attribute [-instance] instBEqProd

variable {S V X α : Type} [DecidableEq S] [DecidableEq V] [DecidableEq X] [Arith α]

/-- The world has exactly the declared objects with the declared parameters. -/
structure Matches (w : World S V X α) (D : Decl S V X α) : Prop where
  iters : w.iters.map IterObj.cfg = D.iters
  algs : w.algs.map (fun o => (o.kind, o.priors, o.iterator)) = D.algs
  valid : ∀ p ∈ D.algs, p.2.2 < D.iters.length
  gens : w.gens.length = D.gens.length
  fresh : ∀ (g a : Nat) (d : Dataset S V X α), w.gens[g]? = some (.fresh a d) → D.gens[g]? = some (a, d)
  genOk : ∀ p ∈ D.gens, p.1 < D.algs.length ∧ Built p.2

theorem Matches.obj {w : World S V X α} {D : Decl S V X α} (h : Matches w D) {a : Nat}
    (ha : a < D.algs.length) : ∃ o it, w.algs[a]? = some o ∧ w.iters[o.iterator]? = some it ∧
      D.config a = some ⟨o.kind, it.cfg, o.priors⟩ := by
  have h1 : D.algs[a]? = (w.algs[a]?).map (fun o => (o.kind, o.priors, o.iterator)) := by
    rw [← h.algs, List.getElem?_map]
  have h2 : a < w.algs.length := by rw [← h.algs] at ha; simpa using ha
  obtain ⟨o, ho⟩ : ∃ o, w.algs[a]? = some o := ⟨_, List.getElem?_eq_getElem h2⟩
  rw [ho] at h1
  have h3 : o.iterator < D.iters.length :=
    h.valid (o.kind, o.priors, o.iterator) (List.mem_of_getElem? h1)
  have h4 : o.iterator < w.iters.length := by rw [← h.iters] at h3; simpa using h3
  obtain ⟨it, hit⟩ : ∃ it, w.iters[o.iterator]? = some it := ⟨_, List.getElem?_eq_getElem h4⟩
  refine ⟨o, it, ho, hit, ?_⟩
  have h5 : D.iters[o.iterator]? = some it.cfg := by
    rw [← h.iters, List.getElem?_map, hit]; rfl
  simp [Decl.config, h1, h5]

theorem Matches.of_config {w : World S V X α} {D : Decl S V X α} (h : Matches w D) {a : Nat}
    {c : AlgCfg α} (hc : D.config a = some c) : ∃ o it, w.algs[a]? = some o ∧
      w.iters[o.iterator]? = some it ∧ c = ⟨o.kind, it.cfg, o.priors⟩ := by
  have ha : a < D.algs.length := by
    by_contra hn
    have : D.algs[a]? = none := List.getElem?_eq_none (by omega)
    simp [Decl.config, this] at hc
  obtain ⟨o, it, h1, h2, h3⟩ := h.obj ha
  refine ⟨o, it, h1, h2, ?_⟩
  rw [h3] at hc
  exact (Option.some.inj hc).symm

theorem Built.shape (h10 : Arith.eq (Arith.ofNat 1 : α) (Arith.ofNat 0) = false)
    {d : Dataset S V X α} (h : Built d) : ∃ l f, d = datasetOf l f := by
  obtain ⟨l, am, f, h⟩ := h
  exact ⟨l, f, ((mk'_ok_iff (l := l) h10 am f d).1 h).1⟩

/-- Setting an iterator's state does not change the configurations. -/
theorem map_set_same {β γ : Type} {l : List β} {i : Nat} {x y : β} (f : β → γ)
    (h : l[i]? = some x) (hf : f y = f x) : (l.set i y).map f = l.map f := by
  rw [List.map_set, hf]
  exact set_self (by rw [List.getElem?_map, h]; rfl)

/-- What a run leaves behind still matches the declarations. -/
theorem Leaves.matches {a : Nat} {o : AlgObj α} {it : IterObj α} {w w' : World S V X α}
    {D : Decl S V X α} (h : Matches w D) (ha : w.algs[a]? = some o)
    (hi : w.iters[o.iterator]? = some it) (hl : Leaves a o it.cfg w w') : Matches w' D := by
  obtain ⟨⟨st, h1⟩, ⟨lg, s, h2⟩, h3, -⟩ := hl
  refine ⟨?_, ?_, h.valid, by rw [h3, h.gens], by rw [h3]; exact h.fresh, h.genOk⟩
  · rw [h1]; exact (map_set_same IterObj.cfg hi (by rfl)).trans h.iters
  · rw [h2]; exact (map_set_same _ ha (by rfl)).trans h.algs

theorem Matches.setGen {w : World S V X α} {D : Decl S V X α} (h : Matches w D) (g : Nat)
    (s : GenState S V X α) (hs : ∀ (a : Nat) (d : Dataset S V X α), s ≠ .fresh a d) :
    Matches { w with gens := w.gens.set g s } D := by
  refine ⟨h.iters, h.algs, h.valid, by simpa using h.gens, ?_, h.genOk⟩
  intro g' a d hg
  by_cases hgg : g = g'
  · subst hgg
    simp only at hg
    rw [List.getElem?_set] at hg
    simp only [↓reduceIte] at hg
    split at hg
    · exact absurd (Option.some.inj hg) (hs a d)
    · simp at hg
  · rw [List.getElem?_set_ne hgg] at hg
    exact h.fresh g' a d hg

theorem resumeA_eq (g L pos : Nat) (w : World S V X α) :
    ∃ s : GenState S V X α, (∀ (a : Nat) (d : Dataset S V X α), s ≠ .fresh a d) ∧
      (resumeA g L pos w).1 = { w with gens := w.gens.set g s } := by
  unfold resumeA
  cases (w.logs.getD L [])[pos]? with
  | none => exact ⟨.done, by simp, rfl⟩
  | some r => exact ⟨.active L (pos + 1), by simp, rfl⟩

/-- Every operation keeps the declared objects, never changes an existing log, and
touches no generator but its own. -/
theorem step_keeps (h10 : Arith.eq (Arith.ofNat 1 : α) (Arith.ofNat 0) = false)
    (clock : Nat → α) (fuel : Nat) {w : World S V X α} {D : Decl S V X α} (h : Matches w D)
    (op : Op S V X α) (hop : OpOk op) :
    Matches (w.step clock fuel op).1 (D.step op) ∧
    (∃ tail, (w.step clock fuel op).1.logs = w.logs ++ tail) ∧
    (∀ g, g < w.gens.length → op ≠ .next g → (w.step clock fuel op).1.gens[g]? = w.gens[g]?) := by
  cases op with
  | newIter cfg =>
    refine ⟨⟨?_, h.algs, ?_, h.gens, h.fresh, h.genOk⟩, ⟨[], by simp [World.step]⟩, fun _ _ _ => rfl⟩
    · simp [World.step, Decl.step, h.iters]
    · intro p hp
      have := h.valid p hp
      simp only [Decl.step, List.length_append, List.length_singleton]
      omega
  | newAlg k p i =>
    have hl : w.iters.length = D.iters.length := by rw [← h.iters]; simp
    by_cases hi : i < w.iters.length
    · simp only [World.step, Decl.step, hi, hl ▸ hi, ↓reduceIte]
      refine ⟨⟨h.iters, ?_, ?_, h.gens, h.fresh, ?_⟩, ⟨[], by simp⟩, by simp⟩
      · simp [h.algs]
      · intro q hq
        rcases List.mem_append.1 hq with hq | hq
        · exact h.valid q hq
        · rw [List.mem_singleton] at hq; subst hq; exact hl ▸ hi
      · intro q hq
        refine ⟨?_, (h.genOk q hq).2⟩
        have := (h.genOk q hq).1
        simp only [List.length_append, List.length_singleton]
        omega
    · simp only [World.step, Decl.step, hi, hl ▸ hi, ↓reduceIte]
      exact ⟨h, ⟨[], by simp⟩, by simp⟩
  | run a d =>
    have hl : w.algs.length = D.algs.length := by rw [← h.algs]; simp
    by_cases ha : a < w.algs.length
    · obtain ⟨o, it, h1, h2, -⟩ := h.obj (hl ▸ ha)
      obtain ⟨l, f, rfl⟩ := Built.shape h10 hop
      have hr := (runA_eq clock l f fuel w h1 h2).2
      simp only [World.step, ha, ↓reduceIte]
      refine ⟨hr.matches h h1 h2, hr.logs, fun g _ _ => by rw [hr.gens]⟩
    · simp only [World.step, ha, ↓reduceIte]
      exact ⟨h, ⟨[], by simp⟩, by simp⟩
  | runIter a d =>
    have hl : w.algs.length = D.algs.length := by rw [← h.algs]; simp
    by_cases ha : a < w.algs.length
    · simp only [World.step, Decl.step, ha, hl ▸ ha, ↓reduceIte]
      refine ⟨⟨h.iters, h.algs, h.valid, by simp [h.gens], ?_, ?_⟩, ⟨[], by simp⟩, ?_⟩
      · intro g a' d' hg
        rcases Nat.lt_trichotomy g w.gens.length with hlt | heq | hgt
        · rw [List.getElem?_append_left hlt] at hg
          rw [List.getElem?_append_left (h.gens ▸ hlt)]
          exact h.fresh g a' d' hg
        · subst heq
          simp only [List.getElem?_concat_length, Option.some.injEq, GenState.fresh.injEq] at hg
          rw [h.gens, List.getElem?_concat_length, hg.1, hg.2]
        · rw [List.getElem?_eq_none (by simp; omega)] at hg
          simp at hg
      · intro q hq
        rcases List.mem_append.1 hq with hq | hq
        · exact h.genOk q hq
        · rw [List.mem_singleton] at hq; subst hq; exact ⟨hl ▸ ha, hop⟩
      · intro g hg _
        exact List.getElem?_append_left hg
    · simp only [World.step, Decl.step, ha, hl ▸ ha, ↓reduceIte]
      exact ⟨h, ⟨[], by simp⟩, by simp⟩
  | next g =>
    by_cases hg : g < w.gens.length
    · simp only [World.step, hg, ↓reduceIte]
      show Matches _ D ∧ _
      obtain ⟨s, hs⟩ : ∃ s, w.gens[g]? = some s := ⟨_, List.getElem?_eq_getElem hg⟩
      have other : ∀ (w' : World S V X α) s', w'.gens = w.gens.set g s' → ∀ g', g' < w.gens.length →
          Op.next (S := S) (V := V) (X := X) (α := α) g ≠ .next g' → w'.gens[g']? = w.gens[g']? := by
        intro w' s' hw g' _ hne
        rw [hw, List.getElem?_set_ne]
        intro e; exact hne (by rw [e])
      cases s with
      | done =>
        have : (nextA clock g fuel w).1 = w := by
          unfold nextA
          rw [Act.bind_ok (Act.deref_ok (o := fun w => w.gens[g]?) hs)]
          rfl
        rw [this]
        exact ⟨h, ⟨[], by simp⟩, by simp⟩
      | active L pos =>
        have : nextA clock g fuel w = resumeA g L pos w := by
          unfold nextA
          rw [Act.bind_ok (Act.deref_ok (o := fun w => w.gens[g]?) hs)]
        rw [this]
        obtain ⟨s', h1, h2⟩ := resumeA_eq g L pos w
        rw [h2]
        exact ⟨h.setGen g s' h1, ⟨[], by simp⟩, other _ s' rfl⟩
      | fresh a d =>
        have hD := h.fresh g a d hs
        obtain ⟨ha, hb⟩ := h.genOk _ (List.mem_of_getElem? hD)
        obtain ⟨o, it, h1, h2, -⟩ := h.obj ha
        obtain ⟨l, f, rfl⟩ := Built.shape h10 hb
        obtain ⟨w', hl, hr⟩ := nextA_fresh clock l f fuel w h1 h2 hs
        have hm := hl.matches (h.setGen g .done (by simp)) h1 h2
        cases hrun : (⟨o.kind, it.cfg, o.priors⟩ : AlgCfg α).runIter (datasetOf l f) fuel
            (fun k => clock (w.ticks + k)) with
        | error e =>
          rw [hrun] at hr
          simp only at hr
          rw [hr]
          exact ⟨hm, hl.logs, other _ .done hl.gens⟩
        | ok rs =>
          rw [hrun] at hr
          simp only at hr
          rw [hr.2]
          obtain ⟨s', e1, e2⟩ := resumeA_eq g w.logs.length 0 w'
          rw [e2]
          refine ⟨hm.setGen g s' e1, hl.logs, other _ s' ?_⟩
          show w'.gens.set g s' = _
          rw [hl.gens, List.set_set]
    · simp only [World.step, hg, ↓reduceIte]
      exact ⟨h, ⟨[], by simp⟩, by simp⟩
  | iterReset i =>
    simp only [World.step]
    cases hi : w.iters[i]? with
    | none => exact ⟨h, ⟨[], by simp⟩, by simp⟩
    | some o =>
      refine ⟨⟨?_, h.algs, h.valid, h.gens, h.fresh, h.genOk⟩, ⟨[], by simp⟩, by simp⟩
      exact (map_set_same IterObj.cfg hi (by rfl)).trans h.iters
  | iterCompare i v u =>
    simp only [World.step]
    cases hi : w.iters[i]? with
    | none => exact ⟨h, ⟨[], by simp⟩, by simp⟩
    | some o =>
      refine ⟨⟨?_, h.algs, h.valid, h.gens, h.fresh, h.genOk⟩, ⟨[], by simp⟩, by simp⟩
      exact (map_set_same IterObj.cfg hi (by rfl)).trans h.iters
  | iterFinished i =>
    simp only [World.step]
    cases hi : w.iters[i]? with
    | none => exact ⟨h, ⟨[], by simp⟩, by simp⟩
    | some o => exact ⟨h, ⟨[], by simp⟩, by simp⟩

theorem exec_append (clock : Nat → α) (fuel : Nat) (w : World S V X α) (xs ys : List (Op S V X α)) :
    w.exec clock fuel (xs ++ ys) =
      (((w.exec clock fuel xs).1.exec clock fuel ys).1,
        (w.exec clock fuel xs).2 ++ ((w.exec clock fuel xs).1.exec clock fuel ys).2) := by
  induction xs generalizing w with
  | nil => rfl
  | cons x xs ih => simp only [List.cons_append, World.exec, ih]

theorem exec_matches (h10 : Arith.eq (Arith.ofNat 1 : α) (Arith.ofNat 0) = false)
    (clock : Nat → α) (fuel : Nat) (ops : List (Op S V X α)) (hops : ∀ op ∈ ops, OpOk op) :
    ∀ (w : World S V X α) (D : Decl S V X α), Matches w D →
      Matches (w.exec clock fuel ops).1 (ops.foldl Decl.step D) := by
  induction ops with
  | nil => intro w D h; exact h
  | cons op ops ih =>
    intro w D h
    exact ih (fun o ho => hops o (List.mem_cons_of_mem _ ho)) _ _
      (step_keeps h10 clock fuel h op (hops op List.mem_cons_self)).1

theorem matches_empty : Matches ({} : World S V X α) {} :=
  ⟨rfl, rfl, by simp, rfl, by simp, by simp⟩

theorem declared_mono (D : Decl S V X α) (op : Op S V X α) {g : Nat} {p}
    (h : D.gens[g]? = some p) : (D.step op).gens[g]? = some p := by
  cases op <;> simp only [Decl.step] <;> try exact h
  all_goals split
  all_goals try exact h
  simp only
  rw [List.getElem?_append_left (List.getElem?_eq_some_iff.1 h).1, h]

/-- **C24.** Take any program: any sequence of constructor calls, runs (successful
or not), `run_iter` calls, `next` calls on any generator (some abandoned half way),
and direct calls on iterators, possibly shared between algorithm objects.  The
next `run` shows exactly what the class and parameters given to the constructor
determine, with the same function for every history; only the readings of the
clock differ (here `ticks` of them were made before). -/
theorem C24_run_independent (h10 : Arith.eq (Arith.ofNat 1 : α) (Arith.ofNat 0) = false)
    (clock : Nat → α) (fuel : Nat) (ops : List (Op S V X α)) (hops : ∀ op ∈ ops, OpOk op)
    (a : Nat) (c : AlgCfg α) (hc : (declared ops).config a = some c)
    (d : Dataset S V X α) (hd : Built d) :
    ∃ ticks, (((World.exec clock fuel {} ops).1.step clock fuel (.run a d)).2) =
      Out.ofExcept (c.run d fuel (fun k => clock (ticks + k))) := by
  have hm := exec_matches h10 clock fuel ops hops {} {} matches_empty
  obtain ⟨o, it, h1, h2, rfl⟩ := hm.of_config hc
  obtain ⟨l, f, rfl⟩ := Built.shape h10 hd
  refine ⟨(World.exec clock fuel {} ops).1.ticks, ?_⟩
  have ha : a < (World.exec clock fuel {} ops).1.algs.length := (List.getElem?_eq_some_iff.1 h1).1
  simp only [World.step, ha, ↓reduceIte]
  rw [(runA_eq clock l f fuel _ h1 h2).1]

/-- Same observation up to the measured time. -/
def Out.sameButTime : Out S V X α → Out S V X α → Prop
  | .result r, .result r' => r.trust = r'.trust ∧ r.belief = r'.belief ∧ r.iterations = r'.iterations
  | .raised e, .raised e' => e = e'
  | .unit, .unit => True
  | .stop, .stop => True
  | .answer b, .answer b' => b = b'
  | _, _ => False

/-- A program that only creates an iterator and an algorithm object. -/
def freshProgram (c : AlgCfg α) : List (Op S V X α) :=
  [.newIter c.iterator, .newAlg c.kind c.priors 0]

/-- **C24.** The same, said with a freshly constructed object: after any history,
`run` shows the same trust, belief, iteration count or exception as on a new
object with the same parameters and its own new iterator. -/
theorem C24_as_fresh (h10 : Arith.eq (Arith.ofNat 1 : α) (Arith.ofNat 0) = false)
    (clock : Nat → α) (fuel : Nat) (ops : List (Op S V X α)) (hops : ∀ op ∈ ops, OpOk op)
    (a : Nat) (c : AlgCfg α) (hc : (declared ops).config a = some c)
    (d : Dataset S V X α) (hd : Built d) :
    Out.sameButTime (((World.exec clock fuel {} ops).1.step clock fuel (.run a d)).2)
      (((World.exec clock fuel {} (freshProgram c)).1.step clock fuel (.run 0 d)).2) := by
  obtain ⟨t1, e1⟩ := C24_run_independent h10 clock fuel ops hops a c hc d hd
  have hfresh : (declared (freshProgram c : List (Op S V X α))).config 0 = some c := by
    obtain ⟨k, i, p⟩ := c
    simp [declared, freshProgram, Decl.step, Decl.config]
  obtain ⟨t2, e2⟩ := C24_run_independent h10 clock fuel (freshProgram c)
    (by simp [freshProgram, OpOk]) 0 c hfresh d hd
  rw [e1, e2]
  obtain ⟨l, f, rfl⟩ := Built.shape h10 hd
  rw [run_eq, run_eq]
  cases c.exec (matsOf l f) fuel with
  | error e => rfl
  | ok r => exact ⟨rfl, rfl, rfl⟩

/-- Where a generator stands after `i` calls of `next`, given the outcome `res` of
its algorithm. -/
def GenAt (w : World S V X α) (g : Nat) (res : Except PyErr (List (Result S V X α))) (i : Nat) :
    Prop :=
  (∃ L rs, res = .ok rs ∧ w.gens[g]? = some (.active L i) ∧ w.logs[L]? = some rs ∧ i ≤ rs.length) ∨
  (w.gens[g]? = some .done ∧ ∀ j, i ≤ j → stream res j = .stop)

theorem resume_at {w : World S V X α} {g L i : Nat} {rs : List (Result S V X α)}
    (hg : g < w.gens.length) (hL : w.logs[L]? = some rs) (hi : i ≤ rs.length) :
    Out.ofNext (resumeA g L i w).2 = stream (.ok rs) i ∧
      GenAt (resumeA g L i w).1 g (.ok rs) (i + 1) := by
  have hD : w.logs.getD L [] = rs := by rw [List.getD_eq_getElem?_getD, hL]; rfl
  unfold resumeA
  rw [hD]
  cases hr : rs[i]? with
  | some r =>
    refine ⟨by simp [Out.ofNext, stream, hr], Or.inl ⟨L, rs, rfl, ?_, hL, ?_⟩⟩
    · exact List.getElem?_set_self hg
    · have := (List.getElem?_eq_some_iff.1 hr).1; omega
  | none =>
    refine ⟨by simp [Out.ofNext, stream, hr], Or.inr ⟨List.getElem?_set_self hg, ?_⟩⟩
    intro j hj
    have h1 : rs.length ≤ i := List.getElem?_eq_none_iff.1 hr
    have h2 : rs[j]? = none := List.getElem?_eq_none (by omega)
    simp [stream, h2]

theorem GenAt.lt {w : World S V X α} {g : Nat} {res : Except PyErr (List (Result S V X α))} {i : Nat}
    (h : GenAt w g res i) : g < w.gens.length := by
  rcases h with ⟨L, rs, -, h, -⟩ | ⟨h, -⟩
  · exact (List.getElem?_eq_some_iff.1 h).1
  · exact (List.getElem?_eq_some_iff.1 h).1

/-- One more `next`. -/
theorem GenAt.next (clock : Nat → α) (fuel : Nat) {w : World S V X α} {g : Nat}
    {res : Except PyErr (List (Result S V X α))} {i : Nat} (h : GenAt w g res i) :
    (w.step clock fuel (.next g)).2 = stream res i ∧
      GenAt (w.step clock fuel (.next g)).1 g res (i + 1) := by
  have hlt := h.lt
  simp only [World.step, hlt, ↓reduceIte]
  rcases h with ⟨L, rs, rfl, h1, h2, h3⟩ | ⟨h1, h2⟩
  · have : nextA clock g fuel w = resumeA g L i w := by
      unfold nextA
      rw [Act.bind_ok (Act.deref_ok (o := fun w => w.gens[g]?) h1)]
    rw [this]
    exact resume_at hlt h2 h3
  · have : nextA clock g fuel w = (w, .ok none) := by
      unfold nextA
      rw [Act.bind_ok (Act.deref_ok (o := fun w => w.gens[g]?) h1)]
      rfl
    rw [this]
    exact ⟨(h2 i (Nat.le_refl i)).symm, Or.inr ⟨h1, fun j hj => h2 j (by omega)⟩⟩

/-- Anything else leaves the generator where it is. -/
theorem GenAt.other (h10 : Arith.eq (Arith.ofNat 1 : α) (Arith.ofNat 0) = false)
    (clock : Nat → α) (fuel : Nat) {w : World S V X α} {D : Decl S V X α}
    (hm : Matches w D) {g : Nat} {res : Except PyErr (List (Result S V X α))} {i : Nat}
    (h : GenAt w g res i) (op : Op S V X α) (hop : OpOk op) (hne : op ≠ .next g) :
    GenAt (w.step clock fuel op).1 g res i := by
  obtain ⟨-, ⟨tail, hlogs⟩, hg⟩ := step_keeps h10 clock fuel hm op hop
  have hg := hg g h.lt hne
  rcases h with ⟨L, rs, rfl, h1, h2, h3⟩ | ⟨h1, h2⟩
  · refine Or.inl ⟨L, rs, rfl, by rw [hg, h1], ?_, h3⟩
    rw [hlogs, List.getElem?_append_left (List.getElem?_eq_some_iff.1 h2).1, h2]
  · exact Or.inr ⟨by rw [hg, h1], h2⟩

theorem nexts_cons_ne (g : Nat) (op : Op S V X α) (o : Out S V X α)
    (tr : List (Op S V X α × Out S V X α)) (hne : op ≠ .next g) :
    nexts g ((op, o) :: tr) = nexts g tr := by
  unfold nexts
  cases op <;> simp_all

theorem nexts_cons_next (g : Nat) (o : Out S V X α) (tr : List (Op S V X α × Out S V X α)) :
    nexts g ((.next g, o) :: tr) = o :: nexts g tr := by
  simp [nexts]

open Classical in
theorem GenAt.exec (h10 : Arith.eq (Arith.ofNat 1 : α) (Arith.ofNat 0) = false)
    (clock : Nat → α) (fuel : Nat) {g : Nat} {res : Except PyErr (List (Result S V X α))}
    (ops : List (Op S V X α)) (hops : ∀ op ∈ ops, OpOk op) :
    ∀ (w : World S V X α) (D : Decl S V X α) (i : Nat), Matches w D → GenAt w g res i →
      ∀ j o, (nexts g (w.exec clock fuel ops).2)[j]? = some o → o = stream res (i + j) := by
  induction ops with
  | nil => intro w D i _ _ j o h; simp [World.exec, nexts] at h
  | cons op ops ih =>
    intro w D i hm hg j o h
    have hop := hops op List.mem_cons_self
    have hm' := (step_keeps h10 clock fuel hm op hop).1
    have ih := ih (fun o ho => hops o (List.mem_cons_of_mem _ ho)) (w.step clock fuel op).1 (D.step op)
    simp only [World.exec] at h
    by_cases hne : op = .next g
    · subst hne
      rw [nexts_cons_next] at h
      obtain ⟨h1, h2⟩ := hg.next clock fuel
      cases j with
      | zero =>
        simp only [List.getElem?_cons_zero, Option.some.injEq] at h
        rw [← h, h1, Nat.add_zero]
      | succ j =>
        rw [List.getElem?_cons_succ] at h
        rw [ih (i + 1) hm' h2 j o h]
        congr 1
        omega
    · rw [nexts_cons_ne g op _ _ hne] at h
      exact ih i hm' (hg.other h10 clock fuel hm op hop hne) j o h

/-- A generator nobody called `next` on is still fresh. -/
theorem fresh_kept (h10 : Arith.eq (Arith.ofNat 1 : α) (Arith.ofNat 0) = false)
    (clock : Nat → α) (fuel : Nat) (g : Nat) (p : Nat × Dataset S V X α)
    (ops : List (Op S V X α)) (hops : ∀ op ∈ ops, OpOk op) (hno : Op.next g ∉ ops) :
    ∀ (w : World S V X α) (D : Decl S V X α), Matches w D →
      (∀ q, D.gens[g]? = some q → w.gens[g]? = some (.fresh q.1 q.2)) →
      (ops.foldl Decl.step D).gens[g]? = some p →
      (w.exec clock fuel ops).1.gens[g]? = some (.fresh p.1 p.2) := by
  induction ops with
  | nil => intro w D _ h hp; exact h p hp
  | cons op ops ih =>
    intro w D hm h hp
    have hop := hops op List.mem_cons_self
    obtain ⟨hm', -, hk⟩ := step_keeps h10 clock fuel hm op hop
    refine ih (fun o ho => hops o (List.mem_cons_of_mem _ ho))
      (fun hin => hno (List.mem_cons_of_mem _ hin)) _ _ hm' ?_ hp
    intro q hq
    have hne : op ≠ .next g := fun e => hno (e ▸ List.mem_cons_self)
    by_cases hlt : g < w.gens.length
    · rw [hk g hlt hne]
      have : ∃ q', D.gens[g]? = some q' := ⟨_, List.getElem?_eq_getElem (hm.gens ▸ hlt)⟩
      obtain ⟨q', hq'⟩ := this
      have := declared_mono D op hq'
      rw [hq] at this
      obtain rfl := Option.some.inj this
      exact h q hq'
    · -- the operation must have created it
      have hDnone : D.gens[g]? = none := List.getElem?_eq_none (by rw [← hm.gens]; omega)
      cases op with
      | runIter a d =>
        have hl : w.algs.length = D.algs.length := by rw [← hm.algs]; simp
        simp only [Decl.step] at hq
        split at hq
        next ha =>
          have ha' : a < w.algs.length := hl ▸ ha
          simp only [World.step, ha', ↓reduceIte]
          have hg : g = D.gens.length := by
            have := (List.getElem?_eq_some_iff.1 hq).1
            simp only [List.length_append, List.length_singleton] at this
            have := hm.gens
            omega
          subst hg
          simp only [List.getElem?_concat_length, Option.some.injEq] at hq
          subst hq
          rw [← hm.gens, List.getElem?_concat_length]
        next ha => rw [hDnone] at hq; simp at hq
      | newAlg k pr i =>
        simp only [Decl.step] at hq
        split at hq
        · simp [hDnone] at hq
        · simp [hDnone] at hq
      | _ => simp [Decl.step, hDnone] at hq

/-- **C25.** Take any program and look at one `run_iter` generator `g`, made from
the algorithm object `a` (with class and parameters `c`) and the dataset `d`.
Whatever happens before its first `next`, and however its `next` calls are then
interleaved with `next` calls on other generators (of the same object, or of
objects sharing the iterator), with runs and with any other operation: its calls
show the partial results of its own algorithm on its own dataset, in order, and
then `StopIteration`; or the exception of its own run, and then `StopIteration`.
The time stamps are clock readings made from the first `next` on: the computation
takes place there, and is not repeated. -/
theorem C25_isolated (h10 : Arith.eq (Arith.ofNat 1 : α) (Arith.ofNat 0) = false)
    (clock : Nat → α) (fuel : Nat) (pre post : List (Op S V X α))
    (hpre : ∀ op ∈ pre, OpOk op) (hpost : ∀ op ∈ post, OpOk op)
    (g a : Nat) (d : Dataset S V X α) (c : AlgCfg α)
    (hg : (declared pre).gens[g]? = some (a, d)) (hc : (declared pre).config a = some c)
    (hno : Op.next g ∉ pre) :
    ∀ i o, (nexts g (World.exec clock fuel {} (pre ++ .next g :: post)).2)[i]? = some o →
      o = stream (c.runIter d fuel
        (fun k => clock ((World.exec clock fuel {} pre).1.ticks + k))) i := by
  intro i o hio
  have hm := exec_matches h10 clock fuel pre hpre {} {} matches_empty
  have hfr := fresh_kept h10 clock fuel g (a, d) pre hpre hno {} {} matches_empty (by simp) hg
  set w := (World.exec clock fuel {} pre).1 with hw
  have hbuilt : Built d := (hm.genOk _ (List.mem_of_getElem? hg)).2
  obtain ⟨oo, it, h1, h2, rfl⟩ := hm.of_config hc
  obtain ⟨l, f, rfl⟩ := Built.shape h10 hbuilt
  obtain ⟨w', hl, hr⟩ := nextA_fresh clock l f fuel w h1 h2 hfr
  have hglt : g < w.gens.length := (List.getElem?_eq_some_iff.1 hfr).1
  set res := (⟨oo.kind, it.cfg, oo.priors⟩ : AlgCfg α).runIter (datasetOf l f) fuel
    (fun k => clock (w.ticks + k)) with hres
  -- the first call
  have hfirst : Out.ofNext (nextA clock g fuel w).2 = stream res 0 ∧
      GenAt (nextA clock g fuel w).1 g res 1 := by
    have hglt' : g < w'.gens.length := by rw [hl.gens]; simpa using hglt
    cases hcase : res with
    | error e =>
      rw [hcase] at hr
      simp only at hr
      rw [hr]
      refine ⟨by simp [Out.ofNext, stream], Or.inr ⟨?_, ?_⟩⟩
      · show w'.gens[g]? = _
        rw [hl.gens]; exact List.getElem?_set_self hglt
      · intro j hj
        have : j ≠ 0 := by omega
        simp [stream, this]
    | ok rs =>
      rw [hcase] at hr
      simp only at hr
      rw [hr.2]
      exact resume_at hglt' (by rw [hr.1]; exact List.getElem?_concat_length) (Nat.zero_le _)
  have hnil : nexts g (World.exec clock fuel ({} : World S V X α) pre).2 = [] := by
    unfold nexts
    rw [List.filterMap_eq_nil_iff]
    intro p hp
    have hmem : ∀ (ops : List (Op S V X α)) (w : World S V X α) p,
        p ∈ (w.exec clock fuel ops).2 → p.1 ∈ ops := by
      intro ops
      induction ops with
      | nil => intro w p h; simp [World.exec] at h
      | cons x xs ih =>
        intro w p h
        simp only [World.exec, List.mem_cons] at h
        rcases h with rfl | h
        · exact List.mem_cons_self
        · exact List.mem_cons_of_mem _ (ih _ p h)
    have := hmem pre {} p hp
    split
    next g' he =>
      have : g' ≠ g := fun e => hno (by rw [← e, ← he]; exact this)
      simp [this]
    · rfl
  rw [exec_append] at hio
  have happ : ∀ xs ys : List (Op S V X α × Out S V X α), nexts g (xs ++ ys) = nexts g xs ++ nexts g ys :=
    fun xs ys => List.filterMap_append
  simp only [happ, hnil, List.nil_append] at hio
  simp only [World.exec] at hio
  rw [nexts_cons_next] at hio
  have hstep : (w.step clock fuel (.next g)) =
      ((nextA clock g fuel w).1, Out.ofNext (nextA clock g fuel w).2) := by
    simp only [World.step, hglt, ↓reduceIte]
  have hm1 := (step_keeps h10 clock fuel hm (.next g) trivial).1
  cases i with
  | zero =>
    simp only [List.getElem?_cons_zero, Option.some.injEq] at hio
    rw [← hio]
    show (w.step clock fuel (.next g)).2 = _
    rw [hstep]
    exact hfirst.1
  | succ i =>
    rw [List.getElem?_cons_succ] at hio
    have hga : GenAt (w.step clock fuel (.next g)).1 g res 1 := by rw [hstep]; exact hfirst.2
    rw [GenAt.exec h10 clock fuel post hpost _ _ 1 hm1 hga i o hio, Nat.add_comm]

/-- **C25.** Calling `run_iter` runs nothing: no iterator, algorithm object or log
changes, and the clock is not read. -/
theorem C25_lazy (clock : Nat → α) (fuel : Nat) (w : World S V X α) (a : Nat)
    (d : Dataset S V X α) :
    (w.step clock fuel (.runIter a d)).2 = .unit ∧
    (w.step clock fuel (.runIter a d)).1.iters = w.iters ∧
    (w.step clock fuel (.runIter a d)).1.algs = w.algs ∧
    (w.step clock fuel (.runIter a d)).1.logs = w.logs ∧
    (w.step clock fuel (.runIter a d)).1.ticks = w.ticks := by
  simp only [World.step]
  split <;> exact ⟨rfl, rfl, rfl, rfl, rfl⟩

/-- **C25.** The number of `next` calls equals the number of observations, so the
previous theorem speaks about every call. -/
theorem C25_all_calls (clock : Nat → α) (fuel : Nat) (g : Nat) (ops : List (Op S V X α))
    (w : World S V X α) : (nexts g (w.exec clock fuel ops).2).length =
      (ops.filter fun op => match op with | .next g' => g' = g | _ => false).length := by
  induction ops generalizing w with
  | nil => rfl
  | cons op ops ih =>
    simp only [World.exec]
    cases op with
    | next g' =>
      by_cases h : g' = g
      · subst h
        rw [nexts_cons_next, List.length_cons, ih]
        simp
      · rw [nexts_cons_ne g _ _ _ (by simpa using h), ih]
        simp [h]
    | _ =>
      rw [nexts_cons_ne g _ _ _ (by simp), ih]
      simp

/-- Two algorithm objects sharing one iterator; a generator of each, consumed
alternately, and a run in between. -/
def sharedProgram (d : Dataset String String Nat Int) : List (Op String String Nat Int) :=
  [.newIter (.fixed 2), .newAlg .sums (some .count) 0, .newAlg .averageLog (some .fixed) 0,
   .run 0 d, .runIter 0 d, .runIter 1 d, .next 1, .run 1 d]

example : ∃ d : Dataset String String Nat Int, Dataset.mk' Toy.triples false none = .ok d ∧
    (∀ op ∈ sharedProgram d, OpOk op) ∧
    (declared (sharedProgram d)).config 0 = some ⟨.sums, .fixed 2, some .count⟩ ∧
    (declared (sharedProgram d)).gens[0]? = some (0, d) ∧
    Op.next 0 ∉ sharedProgram d ∧
    (nexts 0 (World.exec (fun k => (k : Int)) 5 {}
      (sharedProgram d ++ .next 0 :: [.next 1, .run 0 d, .next 0, .next 0, .next 0])).2).length = 4 := by
  refine ⟨_, rfl, ?_, rfl, rfl, ?_, rfl⟩
  · intro op hop
    simp only [sharedProgram, List.mem_cons, List.not_mem_nil, or_false] at hop
    rcases hop with rfl | rfl | rfl | rfl | rfl | rfl | rfl | rfl <;>
      first | trivial | exact ⟨Toy.triples, false, none, rfl⟩
  · simp [sharedProgram]

end TD
