import Verif.Props.Order
import Verif.Props.Rename
/-!
# C68: indistinguishable sources and claims get the same scores

A symmetry of a dataset is a renaming of sources, variables and values (per variable) that
leaves the set of recorded claims as it is.
-/

namespace TD
open Spec
attribute [-instance] instBEqProd

variable {S V X : Type} [DecidableEq S] [DecidableEq V] [DecidableEq X] {l : List (S × V × X)}

theorem get_rename_trust {α : Type} (ρ : Renaming S V X S V X) (r : Result S V X α) (s : S) :
    (ρ.result r).trust.get? (ρ.source s) = r.trust.get? s := by
  unfold Renaming.result Dict.get?
  induction r.trust with
  | nil => rfl
  | cons p t ih =>
    obtain ⟨a, b⟩ := p
    simp only [List.map_cons, List.lookup_cons]
    by_cases h : s = a
    · subst h; simp
    · have : ρ.source s ≠ ρ.source a := fun e => h (ρ.source_inj _ _ e)
      simp only [beq_eq_false_iff_ne.2 h, beq_eq_false_iff_ne.2 this]
      exact ih

theorem get_rename_belief {α : Type} (ρ : Renaming S V X S V X) (r : Result S V X α) (v : V) (x : X) :
    ((ρ.result r).belief.get? (ρ.var v)).bind (fun d => d.get? (ρ.val v x)) =
      (r.belief.get? v).bind (fun d => d.get? x) := by
  unfold Renaming.result Dict.get?
  simp only
  induction r.belief with
  | nil => rfl
  | cons p t ih =>
    obtain ⟨a, b⟩ := p
    simp only [List.map_cons, List.lookup_cons]
    by_cases h : v = a
    · subst h
      simp only [beq_self_eq_true, Option.bind_some]
      induction b with
      | nil => rfl
      | cons q b ih' =>
        obtain ⟨y, z⟩ := q
        simp only [List.map_cons, List.lookup_cons]
        by_cases h : x = y
        · subst h; simp
        · have : ρ.val v x ≠ ρ.val v y := fun e => h (ρ.val_inj _ _ _ e)
          simp only [beq_eq_false_iff_ne.2 h, beq_eq_false_iff_ne.2 this]
          exact ih'
    · have : ρ.var v ≠ ρ.var a := fun e => h (ρ.var_inj _ _ e)
      simp only [beq_eq_false_iff_ne.2 h, beq_eq_false_iff_ne.2 this]
      exact ih

theorem respects_of_same {α : Type} {ρ : Renaming S V X S V X} {r : Result S V X α}
    (h : SameResult (ρ.result r) r) : ρ.Respects r :=
  ⟨fun s => by rw [← h.trust, get_rename_trust], fun v x => by rw [← h.belief, get_rename_belief]⟩

theorem renamed_ne_nil (ρ : Renaming S V X S V X) (hl : l ≠ []) : ρ.triples l ≠ [] := by
  simpa [Renaming.triples] using hl

variable {f : Option (V → X → X → Option ℝ)} (ρ : Renaming S V X S V X)

/-- **C68.** The result of a run respects every symmetry of the dataset. -/
theorem C68_run (hs : ∀ t, t ∈ recorded (ρ.triples l) ↔ t ∈ recorded l) (hf : ρ.Agrees (finImp f) (finImp f))
    {am : Bool} {d : Dataset S V X Ex} (hd : Dataset.mk' l am (finImp f) = .ok d)
    (hl : l ≠ []) {c : AlgCfg Ex} (hc : Sound l c) {fuel : Nat} {clock : Nat → Ex} {st : IterState Ex}
    {r : Result S V X Ex} (hr : c.run d fuel clock st = .ok r) : ρ.Respects r := by
  obtain ⟨d', hd'⟩ := (C41_constructor ρ ex_one_ne_zero l am _ _ hf).1.1 ⟨d, hd⟩
  have h1 := C41_run ρ ex_one_ne_zero l am _ _ hf d hd d' hd' c fuel clock st
  have h2 := C40_recorded (fun t => (hs t).symm) hd hd' hl hc fuel clock st
  rw [h1, hr] at h2
  refine respects_of_same ?_
  exact ⟨fun s => (h2.trust s).symm, fun v => (h2.vars v).symm, fun v x => (h2.belief v x).symm,
    h2.time.symm, h2.iterations.symm⟩

/-- **C68.** So does every partial result of `run_iter`. -/
theorem C68_run_iter (hs : ∀ t, t ∈ recorded (ρ.triples l) ↔ t ∈ recorded l)
    (hf : ρ.Agrees (finImp f) (finImp f))
    {am : Bool} {d : Dataset S V X Ex} (hd : Dataset.mk' l am (finImp f) = .ok d)
    (hl : l ≠ []) {c : AlgCfg Ex} (hc : Sound l c) {fuel : Nat} {clock : Nat → Ex} {st : IterState Ex}
    {rs : List (Result S V X Ex)} (hr : c.runIter d fuel clock st = .ok rs) :
    ∀ r ∈ rs, ρ.Respects r := by
  obtain ⟨d', hd'⟩ := (C41_constructor ρ ex_one_ne_zero l am _ _ hf).1.1 ⟨d, hd⟩
  have h1 := C41_run_iter ρ ex_one_ne_zero l am _ _ hf d hd d' hd' c fuel clock st
  have h2 := runIter_same (fun t => (hs t).symm) hd hd' hl hc fuel clock st
  rw [h1, hr] at h2
  replace h2 : List.Forall₂ SameResult rs (rs.map ρ.result) := h2
  clear hr h1
  induction rs with
  | nil => simp
  | cons a rs ih =>
    obtain ⟨ha, h2⟩ := List.forall₂_cons.1 h2
    intro r hr
    rcases List.mem_cons.1 hr with rfl | hr
    · exact respects_of_same ⟨fun s => (ha.trust s).symm, fun v => (ha.vars v).symm,
        fun v x => (ha.belief v x).symm, ha.time.symm, ha.iterations.symm⟩
    · exact ih h2 r hr

/-- **C68.** So does majority voting. -/
theorem C68_voting (hs : ∀ t, t ∈ recorded (ρ.triples l) ↔ t ∈ recorded l)
    {f : Option (V → X → X → Option Ex)}
    {am : Bool} {d : Dataset S V X Ex} (hd : Dataset.mk' l am f = .ok d)
    (hl : l ≠ []) {clock : Nat → Ex}
    {r : Result S V X Ex} (hr : votingRun d clock = .ok r) : ρ.Respects r := by
  have hs' : SameClaims (ρ.triples l) l := hs
  obtain ⟨r', h1, h2, -⟩ := C29_voting l am f d hd hl clock
  obtain rfl := Except.ok.inj (h1.symm.trans hr)
  obtain ⟨ht, hb⟩ := h2
  have src : ∀ s, ρ.source s ∈ allSources l ↔ s ∈ allSources l := by
    intro s
    conv_lhs => rw [← hs'.allSources, mem_allSources, sources_rename, List.mem_map]
    rw [mem_allSources]
    exact ⟨fun ⟨a, ha, e⟩ => ρ.source_inj _ _ e ▸ ha, fun h => ⟨s, h, rfl⟩⟩
  have cls : ∀ v x, (ρ.var v, ρ.val v x) ∈ allClaims l ↔ (v, x) ∈ allClaims l := by
    intro v x
    conv_lhs => rw [← hs'.allClaims, mem_allClaims, claims_rename, List.mem_map]
    rw [mem_allClaims]
    exact ⟨fun ⟨a, ha, e⟩ => rnClaim_inj ρ a (v, x) e ▸ ha, fun h => ⟨(v, x), h, rfl⟩⟩
  have cnt : ∀ v x, nSources l (ρ.var v, ρ.val v x) = nSources l (v, x) := by
    intro v x
    have e : sourcesOf l (ρ.var v, ρ.val v x) = (sourcesOf l (v, x)).image ρ.source := by
      ext s
      rw [mem_sourcesOf l, Finset.mem_image, ← hs, recorded_rename]
      constructor
      · intro h
        obtain ⟨t, ht, e⟩ := List.mem_map.1 h
        simp only [Prod.mk.injEq] at e
        refine ⟨t.1, ?_, e.1⟩
        rw [mem_sourcesOf l, ← rnClaim_inj ρ t.2 (v, x) (Prod.ext e.2.1 e.2.2)]
        exact ht
      · rintro ⟨a, ha, rfl⟩
        exact List.mem_map.2 ⟨(a, v, x), (mem_sourcesOf l).1 ha, rfl⟩
    unfold nSources
    rw [e, Finset.card_image_of_injective _ (fun a b h => ρ.source_inj a b h)]
  constructor
  · intro s
    rw [ht, ht]
    by_cases h : s ∈ allSources l
    · rw [if_pos h, if_pos ((src s).2 h)]; rfl
    · rw [if_neg h, if_neg (mt (src s).1 h)]
  · intro v x
    rw [hb, hb]
    by_cases h : (v, x) ∈ allClaims l
    · rw [if_pos h, if_pos ((cls v x).2 h)]
      simp only [voting, scaled, cnt]
    · rw [if_neg h, if_neg (mt (cls v x).1 h)]

/-- Exchange two sources. -/
def exchange (a b : S) : Renaming S V X S V X where
  source := Equiv.swap a b
  var := id
  val _ := id
  source_inj := fun _ _ h => (Equiv.swap a b).injective h
  var_inj _ _ h := h
  val_inj _ _ _ h := h

/-- **C68.** Two sources that make the same claims get the same trust. -/
theorem C68_copies {a b : S} (hab : ∀ c, (a, c) ∈ recorded l ↔ (b, c) ∈ recorded l)
    {am : Bool} {d : Dataset S V X Ex} (hd : Dataset.mk' l am (finImp f) = .ok d)
    (hl : l ≠ []) {c : AlgCfg Ex} (hc : Sound l c) {fuel : Nat} {clock : Nat → Ex} {st : IterState Ex}
    {r : Result S V X Ex} (hr : c.run d fuel clock st = .ok r) : r.trust.get? a = r.trust.get? b := by
  have hs : ∀ t, t ∈ recorded ((exchange a b : Renaming S V X S V X).triples l) ↔ t ∈ recorded l := by
    rintro ⟨s, c⟩
    rw [recorded_rename]
    have key : ∀ s c, (Equiv.swap a b s, c) ∈ recorded l ↔ (s, c) ∈ recorded l := by
      intro s c
      by_cases h1 : s = a
      · subst h1; rw [Equiv.swap_apply_left]; exact (hab c).symm
      by_cases h2 : s = b
      · subst h2; rw [Equiv.swap_apply_right]; exact hab c
      rw [Equiv.swap_apply_of_ne_of_ne h1 h2]
    constructor
    · intro h
      obtain ⟨t, ht, e⟩ := List.mem_map.1 h
      cases e
      exact (key t.1 t.2).2 ht
    · intro h
      refine List.mem_map.2 ⟨(Equiv.swap a b s, c), (key s c).2 h, ?_⟩
      show (Equiv.swap a b (Equiv.swap a b s), c) = (s, c)
      rw [Equiv.swap_apply_self]
  have hf : (exchange a b : Renaming S V X S V X).Agrees (finImp f) (finImp f) := by
    unfold Renaming.Agrees
    cases f <;> simp [finImp, exchange]
  have h := (C68_run (exchange a b) hs hf hd hl hc hr).1 b
  rwa [show (exchange a b : Renaming S V X S V X).source b = a from Equiv.swap_apply_right a b] at h

/-- A symmetry that moves sources and claims: two sources disagree about variable 0 and agree
about variable 1; exchange them and the two values of variable 0. -/
def mirror : Renaming Nat Nat Nat Nat Nat Nat where
  source := Equiv.swap 0 1
  var := id
  val v := if v = 0 then Equiv.swap 5 6 else id
  source_inj := fun _ _ h => (Equiv.swap 0 1).injective h
  var_inj _ _ h := h
  val_inj v a b h := by
    split at h
    · exact (Equiv.swap 5 6).injective h
    · exact h

example : ∃ (l : List (Nat × Nat × Nat)) (d : Dataset Nat Nat Nat Ex), l ≠ [] ∧
    Dataset.mk' l false (finImp none) = .ok d ∧
    (∀ t, t ∈ recorded (mirror.triples l) ↔ t ∈ recorded l) ∧
    mirror.Agrees (finImp none) (finImp none) ∧ mirror.source 0 = 1 ∧ mirror.val 0 5 = 6 ∧
    ∃ c : AlgCfg Ex, Sound l c := by
  refine ⟨[(0, 0, 5), (1, 0, 6), (0, 1, 5), (1, 1, 5)], _, by simp,
    (mk'_ok_iff _ ex_one_ne_zero _ _ _).2 ⟨rfl, Or.inr (by decide), id⟩, ?_, trivial, by decide, by decide, ?_⟩
  · have e : mirror.triples [(0, 0, 5), (1, 0, 6), (0, 1, 5), (1, 1, 5)] =
      [(1, 0, 6), (0, 0, 5), (1, 1, 5), (0, 1, 5)] := by decide
    rw [e, recorded_eq_self (by decide), recorded_eq_self (by decide)]
    intro t
    simp only [List.mem_cons, List.not_mem_nil, or_false]
    tauto
  · exact ⟨⟨.averageLog, .fixed 3, some .fixed⟩, ⟨by simp, 0, by decide⟩⟩

end TD
