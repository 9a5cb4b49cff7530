import Verif.Lemmas.StyledJson
import Verif.Spec.AnswerText
import Verif.Props.JsonText
import Verif.Props.PageTables
import Verif.Props.EscapeRun
import Verif.Props.Form
/-!
# C105: the text of an answer of the server
-/

namespace TD
open Spec

/-! ### Objects -/

theorem get?_cons_eq {κ ν : Type} [DecidableEq κ] (k' : κ) (v : ν) (r : Dict κ ν) (k : κ) :
    Dict.get? ((k', v) :: r) k = if k = k' then some v else Dict.get? r k := by
  unfold Dict.get?
  rw [List.lookup_cons]
  by_cases h : k = k'
  · simp [h]
  · rw [if_neg h, show (k == k') = false by simp [h]]

section
variable {α : Type}

theorem mem_numbersOfFields {x : α} {fs : List (Text × WJson α)} :
    x ∈ numbersOfFields fs ↔ ∃ p ∈ fs, x ∈ numbers p.2 := by
  induction fs with
  | nil => simp [numbersOfFields]
  | cons p fs ih =>
    obtain ⟨k, v⟩ := p
    rw [numbersOfFields, List.mem_append, ih]
    simp

theorem mem_numbers_obj {x : α} {fs : List (Text × WJson α)} :
    x ∈ numbers (.obj fs) ↔ ∃ p ∈ fs, x ∈ numbers p.2 := by
  rw [numbers, mem_numbersOfFields]

theorem mem_numbers_sortedObj {κ β : Type} {lt : κ → κ → Bool} {str : κ → Text} {f : β → WJson α} {d : Dict κ β} {x : α} :
    x ∈ numbers (sortedObj lt str f d) ↔ ∃ p ∈ d, x ∈ numbers (f p.2) := by
  unfold sortedObj
  rw [mem_numbers_obj]
  simp only [List.mem_map]
  constructor
  · rintro ⟨_, ⟨q, hq, rfl⟩, hx⟩
    exact ⟨q, (pySorted_perm _ d).mem_iff.1 hq, hx⟩
  · rintro ⟨q, hq, hx⟩
    exact ⟨_, ⟨q, (pySorted_perm _ d).mem_iff.2 hq, rfl⟩, hx⟩

theorem get?_member (n : String) (a : Option (WJson α)) (r : List (Text × WJson α)) (k : Text) :
    Dict.get? (member? n a ++ r) k = if k = n.toList then (match a with
      | some v => some v
      | none => Dict.get? r k) else Dict.get? r k := by
  cases a with
  | none => simp [member?]
  | some v =>
    exact get?_cons_eq n.toList v r k

theorem Member.unique {w : WJson α} {name : String} {v v' : WJson α} (h : Member w name v) (h' : Member w name v') : v = v' := by
  obtain ⟨fs, rfl, h1⟩ := h
  obtain ⟨_, e, h2⟩ := h'
  cases e
  exact Option.some.inj (h1.symm.trans h2)

theorem Member.obj {fs : List (Text × WJson α)} {name : String} {v : WJson α} (h : Member (.obj fs) name v) :
    Dict.get? fs name.toList = some v := by
  obtain ⟨_, e, h⟩ := h
  cases e
  exact h

variable [Arith α] {X : Type}

/-- The members of an output. -/
theorem outJson_get (env : AnswerEnv X α) (out : WebOut X α) : ∃ fs, outJson env out = .obj fs ∧
    Dict.get? fs "trust".toList = (out.fields.get? .trust).map (outValJson env) ∧
    Dict.get? fs "belief".toList = (out.fields.get? .belief).map (outValJson env) ∧
    Dict.get? fs "time".toList = (out.fields.get? .time).map (outValJson env) ∧
    Dict.get? fs "iterations".toList = (out.fields.get? .iterations).map (outValJson env) ∧
    Dict.get? fs "imagery".toList = some (imageryJson env out) ∧
    Dict.get? fs "diff".toList = out.diff.map diffJson := by
  refine ⟨_, rfl, ?_, ?_, ?_, ?_, ?_, ?_⟩
  all_goals
    rw [← List.append_nil (member? "trust_stats" _)]
    simp only [get?_member, get?_cons_eq]
    simp only [show ∀ k : Text, Dict.get? ([] : List (Text × WJson α)) k = none from fun _ => rfl]
    simp (config := {decide := true}) only [↓reduceIte]
  all_goals
    try split <;> rename_i e <;> rw [e]

end

/-! ### What is read from an object of numbers -/

theorem get?_map_snd {κ β γ : Type} [DecidableEq κ] (f : β → γ) (d : Dict κ β) (k : κ) :
    Dict.get? (d.map fun p => (p.1, f p.2)) k = (d.get? k).map f := by
  induction d with
  | nil => rfl
  | cons p d ih =>
    obtain ⟨k', v⟩ := p
    rw [List.map_cons, get?_cons_eq, get?_cons_eq, ih]
    split <;> rfl

theorem get?_of_perm {κ β : Type} [DecidableEq κ] {d d' : Dict κ β} (h : d.Perm d') (hnd : d'.keys.Nodup) (k : κ) :
    d.get? k = d'.get? k := by
  have hnd' : (d.map Prod.fst).Nodup := (h.map Prod.fst).nodup_iff.2 hnd
  ext x
  rw [show d.get? k = d.lookup k from rfl, show d'.get? k = d'.lookup k from rfl]
  rw [lookup_eq_some_iff hnd', lookup_eq_some_iff hnd, h.mem_iff]

theorem numbersOf_sorted {κ : Type} {lt : κ → κ → Bool} {str : κ → Text} {d : Dict κ Ex} {l : List (Text × ℝ)}
    (h : NumbersOf (sortedObj lt str .num d) l) :
    (l.map fun p => (p.1, Ex.fin p.2)).Perm (d.map fun p => (str p.1, p.2)) := by
  obtain ⟨fs, e, h⟩ := h
  cases e
  have := h.map fun p : Text × WJson Ex => (p.1, match p.2 with
    | .num x => x
    | _ => Ex.fin 0)
  rw [List.map_map, List.map_map] at this
  exact this.trans ((pySorted_perm _ d).map _)

theorem numbersOf_exists {κ : Type} (lt : κ → κ → Bool) (str : κ → Text) {d : Dict κ Ex}
    (h : ∀ p ∈ d, ∃ y, p.2 = Ex.fin y) : ∃ l, NumbersOf (sortedObj lt str .num d) l := by
  refine ⟨(pySorted (fun a b : κ × Ex => lt a.1 b.1) d).map fun p => (str p.1, match p.2 with
    | .fin y => y
    | _ => 0), _, rfl, ?_⟩
  rw [List.map_map]
  refine .of_eq (List.map_congr_left fun p hp => ?_)
  obtain ⟨y, hy⟩ := h p ((pySorted_perm _ d).mem_iff.1 hp)
  show (str p.1, WJson.num (Ex.fin (match p.2 with
    | .fin y => y
    | _ => 0))) = (str p.1, WJson.num p.2)
  rw [hy]
  rfl

theorem objectsOf_sorted {κ κ' : Type} {lt : κ → κ → Bool} {str : κ → Text} {lt' : κ' → κ' → Bool} {str' : κ' → Text}
    {d : Dict κ (Dict κ' Ex)} {l : List (Text × List (Text × ℝ))}
    (h : ObjectsOf (sortedObj lt str (sortedObj lt' str' .num) d) l) :
    ∃ b : List (Text × List (Text × ℝ)), b.Perm l ∧
      List.Forall₂ (fun (x : Text × List (Text × ℝ)) (y : κ × Dict κ' Ex) => x.1 = str y.1 ∧
        (x.2.map fun p => (p.1, Ex.fin p.2)).Perm (y.2.map fun p => (str' p.1, p.2))) b d := by
  obtain ⟨fs, l', e, hp, hf⟩ := h
  cases e
  rw [List.forall₂_map_right_iff] at hf
  have hf' : List.Forall₂ (fun (y : κ × Dict κ' Ex) (x : Text × List (Text × ℝ)) => x.1 = str y.1 ∧
      (x.2.map fun p => (p.1, Ex.fin p.2)).Perm (y.2.map fun p => (str' p.1, p.2)))
      (pySorted (fun a b : κ × Dict κ' Ex => lt a.1 b.1) d) l' :=
    List.Forall₂.flip (hf.imp fun x y hxy => ⟨hxy.1, numbersOf_sorted hxy.2⟩)
  obtain ⟨b, h1, h2⟩ := List.perm_comp_forall₂ (pySorted_perm _ d).symm hf'
  exact ⟨b, h2.trans hp, List.Forall₂.flip h1⟩

theorem objectsOf_exists {κ κ' : Type} (lt : κ → κ → Bool) (str : κ → Text) (lt' : κ' → κ' → Bool) (str' : κ' → Text)
    {d : Dict κ (Dict κ' Ex)} (h : ∀ q ∈ d, ∀ p ∈ q.2, ∃ y, p.2 = Ex.fin y) :
    ∃ l, ObjectsOf (sortedObj lt str (sortedObj lt' str' .num) d) l := by
  have key : ∀ s : List (κ × Dict κ' Ex), (∀ q ∈ s, ∀ p ∈ q.2, ∃ y, p.2 = Ex.fin y) →
      ∃ l : List (Text × List (Text × ℝ)), List.Forall₂ (fun (x : Text × List (Text × ℝ)) (y : κ × Dict κ' Ex) =>
        x.1 = str y.1 ∧ NumbersOf (sortedObj lt' str' .num y.2) x.2) l s := by
    intro s hs
    induction s with
    | nil => exact ⟨[], .nil⟩
    | cons q s ih =>
      obtain ⟨l, hl⟩ := ih fun q hq => hs q (List.mem_cons_of_mem _ hq)
      obtain ⟨m, hm⟩ := numbersOf_exists lt' str' (hs q List.mem_cons_self)
      exact ⟨(str q.1, m) :: l, .cons ⟨rfl, hm⟩ hl⟩
  obtain ⟨l, hl⟩ := key (pySorted (fun a b : κ × Dict κ' Ex => lt a.1 b.1) d)
    fun q hq => h q ((pySorted_perm _ d).mem_iff.1 hq)
  exact ⟨l, _, l, rfl, .refl _, List.forall₂_map_right_iff.2 hl⟩

theorem beliefAt_of_perm {E : List (Text × List (Text × ℝ))} {D : Dict Text (Dict Text Ex)}
    (hnd : D.keys.Nodup) (hin : ∀ v b, D.get? v = some b → b.keys.Nodup)
    (h : ∃ b : List (Text × List (Text × ℝ)), b.Perm E ∧
      List.Forall₂ (fun (x : Text × List (Text × ℝ)) (y : Text × Dict Text Ex) => x.1 = id y.1 ∧
        (x.2.map fun p => (p.1, Ex.fin p.2)).Perm (y.2.map fun p => (id p.1, p.2))) b D) (k k' : Text) :
    (beliefAt E k k').map Ex.fin = beliefAt D k k' := by
  obtain ⟨b, hp, hf⟩ := h
  have hkeys : b.map Prod.fst = D.map Prod.fst := by
    clear hnd hin hp
    induction hf with
    | nil => rfl
    | cons h _ ih => rw [List.map_cons, List.map_cons, ih, h.1]; rfl
  have hndb : Dict.keys b |>.Nodup := by
    show (b.map Prod.fst).Nodup
    rw [hkeys]; exact hnd
  have hget : Dict.get? E k = Dict.get? b k := get?_of_perm hp.symm hndb k
  unfold beliefAt
  rw [hget]
  clear hp hget hndb hkeys
  induction hf with
  | nil => rfl
  | @cons x y bs D' hxy hrest ih =>
    obtain ⟨x1, x2⟩ := x
    obtain ⟨y1, y2⟩ := y
    obtain ⟨e, hperm⟩ := hxy
    cases (show x1 = y1 from e)
    have hnd' : (Dict.keys D').Nodup ∧ x1 ∉ Dict.keys D' := by
      have : (x1 :: Dict.keys D').Nodup := hnd
      exact ⟨(List.nodup_cons.1 this).2, (List.nodup_cons.1 this).1⟩
    rw [get?_cons_eq, get?_cons_eq]
    by_cases hk : k = x1
    · rw [if_pos hk, if_pos hk]
      have hy2 : y2.keys.Nodup := hin x1 y2 (by rw [get?_cons_eq, if_pos rfl])
      have hm : (y2.map fun p => (id p.1, p.2)) = y2 := List.map_id' y2
      rw [hm] at hperm
      show Option.map Ex.fin (Dict.get? x2 k') = Dict.get? y2 k'
      rw [← get?_map_snd]
      exact get?_of_perm hperm hy2 k'
    · rw [if_neg hk, if_neg hk]
      refine ih hnd'.1 fun v b hb => hin v b ?_
      rw [get?_cons_eq, if_neg]
      · exact hb
      · rintro rfl
        exact hnd'.2 (List.mem_map.2 ⟨_, mem_of_lookup_some hb, rfl⟩)

/-! ### The dictionaries of differences -/

section
variable {X : Type} [DecidableEq X] {R : Rounding}

theorem rawDiffDict_nodup {ord : List Text → List Text} {d1 d2 : Dict Text (WJson (FP R))} {D : Dict Text (FP R)}
    (h : rawDiffDict ord d1 d2 = .ok D) : D.keys.Nodup := by
  unfold rawDiffDict at h
  refine foldlM_inv (P := fun d : Dict Text (FP R) => d.keys.Nodup) ?_ (by simp [Dict.keys]) h
  intro acc k acc' hacc h
  simp only [bind, Except.bind, pure, Except.pure] at h
  split at h; · cases h
  split at h; · cases h
  split at h; · cases h
  cases h
  exact nodup_set hacc _ _

theorem rawDiffBelief_nodup {ord : List Text → List Text} {b1 b2 : Dict Text (WJson (FP R))} {D : Dict Text (Dict Text (FP R))}
    (h : rawDiffBelief ord b1 b2 = .ok D) : D.keys.Nodup ∧ ∀ v b, D.get? v = some b → b.keys.Nodup := by
  unfold rawDiffBelief at h
  refine foldlM_inv (P := fun d : Dict Text (Dict Text (FP R)) => d.keys.Nodup ∧ ∀ v b, d.get? v = some b → b.keys.Nodup) ?_
    ⟨by simp [Dict.keys], by simp [Dict.get?]⟩ h
  intro acc k acc' hacc h
  simp only [bind, Except.bind, pure, Except.pure] at h
  split at h; · cases h
  split at h; · cases h
  split at h; · cases h
  split at h; · cases h
  split at h; · cases h
  rename_i diffs hdiffs
  split at h
  · cases h; exact hacc
  · cases h
    refine ⟨nodup_set hacc.1 _ _, fun v b hb => ?_⟩
    rw [get?_set] at hb
    split at hb
    · cases hb; exact rawDiffDict_nodup hdiffs
    · exact hacc.2 v b hb

theorem rawDiff_nodup {ord : List Text → List Text} {r1 r2 : RawResult (FP R)} {D : RawDiff (FP R)}
    (h : rawDiff ord r1 r2 = .ok D) :
    D.trust.keys.Nodup ∧ D.belief.keys.Nodup ∧ ∀ v b, D.belief.get? v = some b → b.keys.Nodup := by
  unfold rawDiff at h
  simp only [bind, Except.bind, pure, Except.pure] at h
  split at h; · cases h
  split at h; · cases h
  split at h; · cases h
  split at h; · cases h
  rename_i trust ht
  split at h; · cases h
  split at h; · cases h
  split at h; · cases h
  rename_i belief hb
  split at h; · cases h
  cases h
  exact ⟨rawDiffDict_nodup ht, rawDiffBelief_nodup hb⟩

/-- What a successful answer consists of. -/
structure Made (env : Env X R) (out : WebOut X (FP R)) : Prop where
  scores : ∃ r : Result Nat Nat X (FP R), out.fields.get? .trust = some (.trust r.trust) ∧
    out.fields.get? .belief = some (.belief r.belief) ∧ out.fields.get? .time = some (.time r.time) ∧
    out.fields.get? .iterations = some (.iterations r.iterations) ∧ (∀ x e, ScoreOf r x → ¬ Undrawable x e) ∧
    (∀ f v, out.fields.get? f = some v → outField env.ltVal r none f = .ok (some v)) ∧
    r.trust ≠ [] ∧ WellKeyed r ∧ Shaped r ∧ ∃ i, r.time = env.clock i 1 -. env.clock i 0
  diff : ∀ D, out.diff = some D → D.trust.keys.Nodup ∧ D.belief.keys.Nodup ∧ ∀ v b, D.belief.get? v = some b → b.keys.Nodup

theorem output_fields {lt : X → X → Bool} {r : Result Nat Nat X (FP R)} {fields : Dict Field (OutVal Nat Nat X (FP R))}
    (h : getOutputObj lt r none none = .ok fields) :
    fields.get? .trust = some (.trust r.trust) ∧ fields.get? .belief = some (.belief r.belief) ∧
    fields.get? .time = some (.time r.time) ∧ fields.get? .iterations = some (.iterations r.iterations) := by
  have key : ∀ f v, outField lt r none f = .ok (some v) → ∀ (L : List Field) (acc out : Dict Field (OutVal Nat Nat X (FP R))),
      (f ∈ L ∨ acc.get? f = some v) → L.foldlM (outStep lt r none) acc = .ok out → out.get? f = some v := by
    intro f v hf L
    induction L with
    | nil => intro acc out hm h; cases h; exact hm.resolve_left (by simp)
    | cons g L ih =>
      intro acc out hm h
      rw [List.foldlM_cons] at h
      simp only [bind, Except.bind] at h
      split at h; · cases h
      rename_i acc' hacc
      refine ih acc' out ?_ h
      unfold outStep at hacc
      split at hacc
      · cases hacc
      · rename_i e
        cases hacc
        rcases hm with hm | hm
        · rcases List.mem_cons.1 hm with rfl | hm
          · rw [hf] at e; cases e
          · exact .inl hm
        · exact .inr hm
      · rename_i v' e
        cases hacc
        by_cases hg : f = g
        · subst hg
          rw [hf] at e; cases e
          right; rw [get?_set, if_pos rfl]
        · rcases hm with hm | hm
          · exact .inl ((List.mem_cons.1 hm).resolve_left hg)
          · right; rw [get?_set, if_neg hg]; exact hm
  unfold getOutputObj at h
  exact ⟨key _ _ rfl _ _ _ (.inl (by decide)) h, key _ _ rfl _ _ _ (.inl (by decide)) h,
    key _ _ rfl _ _ _ (.inl (by decide)) h, key _ _ rfl _ _ _ (.inl (by decide)) h⟩

theorem fields_only {lt : X → X → Bool} {r : Result Nat Nat X (FP R)} {fields : Dict Field (OutVal Nat Nat X (FP R))}
    (h : getOutputObj lt r none none = .ok fields) : ∀ f v, fields.get? f = some v → outField lt r none f = .ok (some v) := by
  unfold getOutputObj at h
  refine foldlM_inv (P := fun d : Dict Field (OutVal Nat Nat X (FP R)) => ∀ f v, d.get? f = some v →
    outField lt r none f = .ok (some v)) ?_ (by simp [Dict.get?]) h
  intro acc f acc' hacc h
  unfold outStep at h
  split at h
  · cases h
  · cases h; exact hacc
  · rename_i v e
    cases h
    intro f' v' hf
    rw [get?_set] at hf
    split at hf
    · rename_i e'; subst e'; cases hf; exact e
    · exact hacc f' v' hf

theorem run_time {a : AnyAlg (FP R)} {d : Dataset Nat Nat X (FP R)} {fuel : Nat} {clock : Nat → FP R}
    {r : Result Nat Nat X (FP R)} (h : a.run d fuel clock = .ok r) : r.time = clock 1 -. clock 0 := by
  cases a with
  | voting =>
    simp only [AnyAlg.run, votingRun, bind, Except.bind, pure, Except.pure] at h
    split at h; · cases h
    split at h; · cases h
    split at h; · cases h
    split at h; · cases h
    cases h
    rfl
  | iter c =>
    simp only [AnyAlg.run, AlgCfg.run, bind, Except.bind, pure, Except.pure] at h
    split at h; · cases h
    split at h; · cases h
    split at h; · cases h
    cases h
    rfl

theorem run_nonempty {a : AnyAlg (FP R)} {l : List (Nat × Nat × X)} {fuel : Nat} {clock : Nat → FP R}
    {r : Result Nat Nat X (FP R)} (hd : Dataset.mk' l false none = .ok (datasetOf (α := FP R) l none))
    (h : a.run (datasetOf l none) fuel clock = .ok r) : l ≠ [] := by
  intro hl
  cases a with
  | voting =>
    have := (C09_empty_dataset_voting (fp_one_ne_zero R) l false none _ hd clock).1.2 hl
    rw [AnyAlg.run, this] at h; cases h
  | iter c =>
    have := (C09_empty_dataset (fp_one_ne_zero R) l false none _ hd c fuel clock {}).1.2 hl
    rw [AnyAlg.run, this] at h; cases h

theorem made_of_present {env : Env X R} {req : Request} {l : List (Nat × Nat × X)} {i : Nat} {a : AnyAlg (FP R)}
    {r : Result Nat Nat X (FP R)} (hd : Dataset.mk' l false none = .ok (datasetOf (α := FP R) l none))
    (hr : a.run (datasetOf l none) env.fuel (env.clock (2 * i)) = .ok r) {out : WebOut X (FP R)}
    (h : present env req (datasetOf l none) i a r = .ok (.ok out)) : Made env out := by
  unfold present at h
  simp only [bind, Except.bind, pure, Except.pure] at h
  split at h; · cases h
  rename_i fields hfields
  split at h; · cases h
  rename_i frame hframe
  split at h; · cases h
  split at h; · cases h
  split at h; · cases h
  rename_i diff hdiff
  cases h
  have hout := output_fields hfields
  have hc := complete_run hd hr
  have hl := run_nonempty hd hr
  refine ⟨⟨r, hout.1, hout.2.1, hout.2.2.1, hout.2.2.2, ?_, fields_only hfields, ?_, C47_runs _ _ _ _ _ hr, C51_runs _ _ _ _ _ hr,
    _, run_time hr⟩, ?_⟩
  · rcases web_graph_cases env rfl hc with ⟨f, -, h2⟩ | ⟨e, h1, -⟩
    · exact h2
    · rw [h1] at hframe; cases hframe
  · rintro e
    obtain ⟨s, hs⟩ := allSources_nonempty hl
    have := (hc.1 s).2 hs
    rw [e] at this
    cases this
  · intro D hD
    cases (show diff = some D from hD)
    unfold webDiff at hdiff
    split at hdiff
    · cases hdiff
    · split at hdiff
      · cases hdiff
      · cases hdiff
      · simp only [bind, Except.bind, pure, Except.pure] at hdiff
        split at hdiff; · cases hdiff
        rename_i D' hD'
        cases hdiff
        exact rawDiff_nodup hD'

theorem webLoop_made {env : Env X R} {req : Request} {ps : Dict Text (PVal (FP R))} {l : List (Nat × Nat × X)}
    (hd : Dataset.mk' l false none = .ok (datasetOf (α := FP R) l none)) (labels : List Text) : ∀ (i : Nat) (data data' : Dict Text (WebOut X (FP R))) (ms ms' : List Text),
      webLoop env req ps (datasetOf l none) i labels data ms = .ok (.ok data' ms') → data.keys.Nodup →
      (∀ label out, data.get? label = some out → Made env out) →
      data'.keys.Nodup ∧ ∀ label out, data'.get? label = some out → Made env out := by
  induction labels with
  | nil => intro i data data' ms ms' h h1 h2; cases h; exact ⟨h1, h2⟩
  | cons label labels ih =>
    intro i data data' ms ms' h h1 h2
    rw [webLoop] at h
    split at h
    · cases h
    · cases h
    · rename_i out ms1 ho
      refine ih _ _ _ _ _ h (nodup_set h1 _ _) fun label' out' hg => ?_
      rw [get?_set] at hg
      split at hg
      · cases hg
        unfold oneAlgorithm at ho
        split at ho
        · cases ho
        · cases ho
        · simp only at ho
          split at ho
          · cases ho
          · cases ho
          · cases ho
          · rename_i r hr
            split at ho
            · cases ho
            · cases ho
            · rename_i hp
              cases ho
              exact made_of_present hd hr hp
      · exact h2 label' out' hg

theorem webRun_made {env : Env X R} {req : Request} {data : Dict Text (WebOut X (FP R))} {messages : List Text}
    (h : webRun env req = .ok (.ok data messages)) :
    data.keys.Nodup ∧ ∀ label out, data.get? label = some out → Made env out := by
  unfold webRun at h
  split at h
  · cases h
  · cases h
  · cases h
  · split at h
    · cases h
    · cases h
    · rename_i ps md hin
      unfold webInputs at hin
      simp only [bind, Except.bind, pure, Except.pure] at hin
      split at hin; · cases hin
      split at hin; · cases hin
      rename_i md' hmd
      cases hin
      obtain ⟨l, hl⟩ : ∃ l, Dataset.mk' l false none = .ok md.data := by
        unfold MatrixDataset.fromCsv MatrixDataset.mk' at hmd
        split at hmd; · cases hmd
        rename_i g _
        simp only [bind, Except.bind, pure, Except.pure] at hmd
        cases hg : Dataset.mk' (α := FP R) (getTriples g) false none with
        | error e => rw [hg] at hmd; cases hmd
        | ok d => rw [hg] at hmd; cases hmd; exact ⟨_, hg⟩
      have e := ((mk'_ok_iff _ (fp_one_ne_zero R) _ _ _).1 hl).1
      rw [e] at h hl
      exact webLoop_made hl _ _ _ _ _ _ h (by simp [Dict.keys]) (by simp [Dict.get?])

end
/-! ### C105 -/

section
variable {α : Type} {showNum : α → Text} {Rb : JsonReader α} {st : JsonStyle}

theorem flask_blank (h : FlaskStyle st) : st.Blank := by
  rcases h with rfl | rfl
  · exact blank_compact
  · exact blank_indented

/-- **C105**.  In both styles of `jsonify` a value whose numbers are written as literals is read back. -/
theorem C105_read (hst : FlaskStyle st) {v : WJson α} (h : ∀ x ∈ numbers v, Literal showNum Rb x) :
    parseJson Rb (jsonText st showNum 0 v ++ ['\n']) = some v :=
  parseJson_text (flask_blank hst) (fun x hx => ⟨(h x hx).first, fun _ hr => readScalar_num (h x hx) hr⟩)
    (by simp [AllSpace, isJsonSpace])

variable [Arith α] {X : Type} [DecidableEq X]

theorem difference_mem {aenv : AnswerEnv X α} {data : Dict Text (WebOut X α)} {messages : List Text} {label : Text}
    {out : WebOut X α} (ho : data.get? label = some out) {x : α} (hx : Difference out x) :
    x ∈ numbers (answerJson aenv data messages) := by
  have h1 : ∀ D, out.diff = some D → x ∈ numbers (diffJson D) → x ∈ numbers (answerJson aenv data messages) := by
    intro D hD hx
    unfold answerJson
    rw [mem_numbers_obj]
    refine ⟨_, List.mem_cons_self, ?_⟩
    rw [mem_numbers_sortedObj]
    refine ⟨_, mem_of_lookup_some ho, ?_⟩
    obtain ⟨fs, e, -, -, -, -, -, h⟩ := outJson_get aenv out
    show x ∈ numbers (outJson aenv out)
    rw [e, mem_numbers_obj]
    rw [hD] at h
    exact ⟨_, mem_of_lookup_some h, hx⟩
  cases hx with
  | trust D h k hk =>
    refine h1 D h ?_
    unfold diffJson
    rw [mem_numbers_obj]
    refine ⟨_, .tail _ (.tail _ (.tail _ (.head _))), ?_⟩
    rw [mem_numbers_sortedObj]
    exact ⟨_, mem_of_lookup_some hk, by simp [numbers]⟩
  | belief D h k k' hk =>
    refine h1 D h ?_
    unfold diffJson
    rw [mem_numbers_obj]
    refine ⟨_, .head _, ?_⟩
    rw [mem_numbers_sortedObj]
    unfold beliefAt at hk
    cases hb : Dict.get? D.belief k with
    | none => rw [hb] at hk; cases hk
    | some b =>
      rw [hb] at hk
      refine ⟨_, mem_of_lookup_some hb, ?_⟩
      rw [mem_numbers_sortedObj]
      exact ⟨_, mem_of_lookup_some hk, by simp [numbers]⟩
  | time D h hk =>
    refine h1 D h ?_
    unfold diffJson
    rw [mem_numbers_obj]
    exact ⟨_, .tail _ (.tail _ (.head _)), by simp [numbers, hk]⟩
  | iterations D h hk =>
    refine h1 D h ?_
    unfold diffJson
    rw [mem_numbers_obj]
    exact ⟨_, .tail _ (.head _), by rw [hk]; simp [numbers]⟩

/-- **C105**.  If a difference is not finite (Python reads `NaN` and `Infinity` in "previous_results") the browser refuses the
whole answer. -/
theorem C105_refused (hst : FlaskStyle st) (hR : Rb.words = []) {aenv : AnswerEnv X α} {data : Dict Text (WebOut X α)}
    {messages : List Text} (h : ∀ x ∈ numbers (answerJson aenv data messages), Literal showNum Rb x ∨ NotANumber showNum Rb x)
    {label : Text} {out : WebOut X α} (ho : data.get? label = some out) {x : α} (hx : Difference out x)
    (hn : NotANumber showNum Rb x) : parseJson Rb (answerText st showNum aenv data messages) = none := by
  have hf : ∀ x, NotANumber showNum Rb x → NumFails showNum Rb x := fun x hx =>
    ⟨word_first hx.word, fun rest => by rw [readScalar_word hx, hR]; rfl⟩
  exact parseJson_text_fails (flask_blank hst) (fun x hx => (h x hx).imp (fun h => ⟨h.first, fun _ hr => readScalar_num h hr⟩) (hf x))
    ⟨x, difference_mem ho hx, hf x hn⟩ (by simp [AllSpace, isJsonSpace])

end

section
variable {X : Type} [DecidableEq X]

/-- **C105**.  The scores in an answer are finite numbers, in every arithmetic: others have no colour, and the request fails. -/
theorem C105_scores {R : Rounding} {env : Env X R} {req : Request} {data : Dict Text (WebOut X (FP R))} {messages : List Text}
    (h : webRun env req = .ok (.ok data messages)) {label : Text} {out : WebOut X (FP R)} (ho : data.get? label = some out)
    {x : FP R} (hx : ScoreIn out x) : ∃ y, x = FP.fin y := by
  obtain ⟨⟨r, h1, h2, -, -, h3, -⟩, -⟩ := (webRun_made h).2 label out ho
  have hs : ScoreOf r x := by
    cases hx with
    | trust t ht s hs =>
      rw [h1] at ht; cases ht
      exact .inl ⟨s, hs⟩
    | belief b hb v y hy =>
      rw [h2] at hb; cases hb
      exact .inr ⟨v, y, hy⟩
  have hu := fun e => h3 x e hs
  have key : ∀ z : FNum, z = FNum.nan ∨ z = .pinf ∨ z = .ninf → x *. Arith.ofNat 9 = (show FP R from z) → ∃ y, x = FP.fin y := by
    rintro z (rfl | rfl | rfl) hz
    · exact absurd (.nan hz) (hu _)
    · exact absurd (.inf (.inl hz)) (hu _)
    · exact absurd (.inf (.inr hz)) (hu _)
  have hinf : ∀ y : ℝ, FNum.infOf y = FNum.pinf ∨ FNum.infOf y = FNum.ninf := by
    intro y; unfold FNum.infOf; split <;> simp
  have hmul : ∀ a b : FNum, (∀ y, a ≠ .fin y) → FNum.mul R a b = .nan ∨ FNum.mul R a b = .pinf ∨ FNum.mul R a b = .ninf := by
    intro a b ha
    cases a with
    | fin y => exact absurd rfl (ha y)
    | nan => exact .inl rfl
    | pinf =>
      cases b with
      | nan => exact .inl rfl
      | pinf => exact .inr (.inl rfl)
      | ninf => exact .inr (.inr rfl)
      | fin y =>
        rw [FNum.mul]
        split
        · exact .inl rfl
        · exact .inr (hinf _)
    | ninf =>
      cases b with
      | nan => exact .inl rfl
      | pinf => exact .inr (.inr rfl)
      | ninf => exact .inr (.inl rfl)
      | fin y =>
        rw [FNum.mul]
        split
        · exact .inl rfl
        · exact .inr (hinf _)
  by_contra hne
  push Not at hne
  obtain ⟨y, hy⟩ := key _ (hmul x (Arith.ofNat (α := FP R) 9) hne) rfl
  exact hne y hy

theorem mem_member {α : Type} {n : String} {v : Option (WJson α)} {p : Text × WJson α} (h : p ∈ member? n v) : v = some p.2 := by
  unfold member? at h
  split at h
  · cases h
  · rw [List.mem_singleton] at h; rw [h]

theorem numbers_outJson {α : Type} [Arith α] {aenv : AnswerEnv X α} {out : WebOut X α} {x : α} (h : x ∈ numbers (outJson aenv out)) :
    (∃ f v, out.fields.get? f = some v ∧ x ∈ numbers (outValJson aenv v)) ∨ ∃ D, out.diff = some D ∧ x ∈ numbers (diffJson D) := by
  unfold outJson at h
  simp only [mem_numbers_obj, List.mem_append, List.mem_cons] at h
  obtain ⟨p, hp, hx⟩ := h
  have hf : ∀ f, (out.fields.get? f).map (outValJson aenv) = some p.2 →
      ∃ f v, out.fields.get? f = some v ∧ x ∈ numbers (outValJson aenv v) := by
    intro f hf
    obtain ⟨v, h1, h2⟩ := Option.map_eq_some_iff.1 hf
    exact ⟨f, v, h1, h2 ▸ hx⟩
  rcases hp with hp | hp | hp | hp | hp | hp | hp | hp | hp | hp
  · exact .inl (hf _ (mem_member hp))
  · exact .inl (hf _ (mem_member hp))
  · exact .inl (hf _ (mem_member hp))
  · obtain ⟨D, h1, h2⟩ := Option.map_eq_some_iff.1 (mem_member hp)
    exact .inr ⟨D, h1, h2 ▸ hx⟩
  · rw [hp] at hx
    exfalso
    simp only [imageryJson, mem_numbers_obj, List.mem_append, List.mem_singleton] at hx
    obtain ⟨q, hq | hq, hx⟩ := hx
    · obtain ⟨doc, -, h2⟩ := Option.map_eq_some_iff.1 (mem_member hq)
      rw [← h2, numbers] at hx
      cases hx
    · rw [hq, numbers] at hx
      cases hx
  all_goals exact .inl (hf _ (mem_member hp))

theorem stats_finite {κ : Type} {d : Dict κ Ex} (hne : d ≠ []) (h : ∀ p ∈ d, ∃ y, p.2 = Ex.fin y) :
    ∃ a b, getStats d = (Ex.fin a, Ex.fin b) := by
  obtain ⟨L, hL⟩ : ∃ L : List (κ × ℝ), d = L.map fun p => (p.1, Ex.fin p.2) := by
    clear hne
    induction d with
    | nil => exact ⟨[], rfl⟩
    | cons p d ih =>
      obtain ⟨y, hy⟩ := h p List.mem_cons_self
      obtain ⟨L, hL⟩ := ih fun q hq => h q (List.mem_cons_of_mem _ hq)
      refine ⟨(p.1, y) :: L, ?_⟩
      rw [List.map_cons, ← hL, ← hy]
  have := C46_stats L (by rintro rfl; exact hne hL)
  rw [hL]
  exact ⟨_, _, this.1⟩

theorem numbers_stats {α : Type} {s : α × α} {x : α} (h : x ∈ numbers (statsJson s)) : x = s.1 ∨ x = s.2 := by
  simpa [statsJson, numbers, numbersOfFields] using h

/-- **C105**.  In exact arithmetic all numbers in an answer are finite, if the differences (of which half comes from
"previous_results") are; so the conditions of `C105_answer` can be met. -/
theorem C105_finite {env : Env X .exact} (aenv : AnswerEnv X Ex) {req : Request} {data : Dict Text (WebOut X Ex)}
    {messages : List Text} (h : webRun env req = .ok (.ok data messages)) (hclock : ∀ i j, ∃ y, env.clock i j = Ex.fin y)
    (hval : ∀ v, ∃ y, aenv.numVal v = Ex.fin y)
    (hdiff : ∀ label out x, data.get? label = some out → Difference out x → ∃ y, x = Ex.fin y) :
    ∀ x ∈ numbers (answerJson aenv data messages), ∃ y, x = Ex.fin y := by
  intro x hx
  obtain ⟨hnd, hmade⟩ := webRun_made h
  have harr : ∀ l : List Text, numbersOfList (l.map (WJson.str (α := Ex))) = [] := by
    intro l
    induction l with
    | nil => rfl
    | cons t l ih => rw [List.map_cons, numbersOfList, ih, numbers]; rfl
  have hx' : x ∈ numbers (sortedObj textLt id (outJson aenv) data) := by
    unfold answerJson at hx
    simpa [numbers, numbersOfFields, harr] using hx
  obtain ⟨p, hp, hx'⟩ := mem_numbers_sortedObj.1 hx'
  have hg : data.get? p.1 = some p.2 := lookup_some_of_mem hnd hp
  have hm := hmade _ _ hg
  rcases numbers_outJson hx' with ⟨f, v, hf, hxv⟩ | ⟨D, hD, hxD⟩
  · obtain ⟨⟨r, m1, m2, -, -, -, hof, hne, hkey, hsh, i, htime⟩, -⟩ := hm
    have ht : ∀ q ∈ r.trust, ∃ y, q.2 = Ex.fin y := fun q hq =>
      C105_scores h hg (.trust _ m1 q.1 (lookup_some_of_mem hkey.1 hq))
    have hb : ∀ q ∈ r.belief, ∀ q' ∈ q.2, ∃ y, q'.2 = Ex.fin y := fun q hq q' hq' => by
      have hq1 : r.belief.get? q.1 = some q.2 := lookup_some_of_mem hkey.2.1 hq
      refine C105_scores h hg (.belief _ m2 q.1 q'.1 ?_)
      unfold beliefAt
      rw [hq1]
      exact lookup_some_of_mem (hkey.2.2 _ _ hq1) hq'
    have hv := hof f v hf
    cases f with
    | accuracy => cases hv
    | time =>
      cases hv
      rw [outValJson, numbers, List.mem_singleton] at hxv
      obtain ⟨y1, h1⟩ := hclock i 1
      obtain ⟨y0, h0⟩ := hclock i 0
      rw [hxv, htime, h1, h0, Ex.sub_eq]
      exact ⟨_, rfl⟩
    | iterations =>
      cases hv
      cases hi : r.iterations with
      | none => rw [hi, outValJson, numbers] at hxv; cases hxv
      | some n =>
        rw [hi, outValJson, numbers, List.mem_singleton, Ex.ofNat_eq] at hxv
        exact ⟨_, hxv⟩
    | trust =>
      cases hv
      rw [outValJson] at hxv
      obtain ⟨q, hq, hxq⟩ := mem_numbers_sortedObj.1 hxv
      rw [numbers, List.mem_singleton] at hxq
      rw [hxq]; exact ht q hq
    | belief =>
      cases hv
      rw [outValJson] at hxv
      obtain ⟨q, hq, hxq⟩ := mem_numbers_sortedObj.1 hxv
      obtain ⟨q', hq', hxq⟩ := mem_numbers_sortedObj.1 hxq
      rw [numbers, List.mem_singleton] at hxq
      rw [hxq]; exact hb q hq q' hq'
    | trustStats =>
      cases hv
      rw [outValJson] at hxv
      obtain ⟨a, b, hs⟩ := stats_finite hne ht
      rw [show r.trustStats = getStats r.trust from rfl, hs] at hxv
      rcases numbers_stats hxv with e | e
      · exact ⟨_, e⟩
      · exact ⟨_, e⟩
    | beliefStats =>
      cases hv
      rw [outValJson] at hxv
      obtain ⟨q, hq, hxq⟩ := mem_numbers_sortedObj.1 hxv
      have hq' : q ∈ r.belief.map fun p => (p.1, getStats p.2) := by
        have e : r.beliefStats = r.belief.map fun p => (p.1, getStats p.2) := by
          unfold Result.beliefStats
          refine ofPairs_nodup ?_
          rw [List.map_map]
          exact hkey.2.1
        exact e ▸ hq
      obtain ⟨z, hz, rfl⟩ := List.mem_map.1 hq'
      have hz1 : r.belief.get? z.1 = some z.2 := lookup_some_of_mem hkey.2.1 hz
      obtain ⟨a, b, hs⟩ := stats_finite (hsh.2 _ _ hz1) (hb z hz)
      rw [show ((z.1, getStats z.2) : Nat × (Ex × Ex)).2 = getStats z.2 from rfl, hs] at hxq
      rcases numbers_stats hxq with e | e
      · exact ⟨_, e⟩
      · exact ⟨_, e⟩
    | mostBelieved =>
      simp only [outField, bind, Except.bind, pure, Except.pure] at hv
      split at hv; · cases hv
      cases hv
      rw [outValJson] at hxv
      obtain ⟨q, -, hxq⟩ := mem_numbers_sortedObj.1 hxv
      rw [numbers] at hxq
      generalize q.2 = L at hxq
      induction L with
      | nil => cases hxq
      | cons z L ih =>
        rw [List.map_cons, numbersOfList, List.mem_append, numbers, List.mem_singleton] at hxq
        rcases hxq with e | hxq
        · rw [e]; exact hval z
        · exact ih hxq
  · obtain ⟨n1, n2, n3⟩ := hm.diff D hD
    unfold diffJson at hxD
    simp only [mem_numbers_obj, List.mem_cons, List.not_mem_nil, or_false] at hxD
    obtain ⟨q, hq, hxq⟩ := hxD
    rcases hq with rfl | rfl | rfl | rfl
    · obtain ⟨z, hz, hxz⟩ := mem_numbers_sortedObj.1 hxq
      obtain ⟨z', hz', hxz⟩ := mem_numbers_sortedObj.1 hxz
      rw [numbers, List.mem_singleton] at hxz
      have hz1 : D.belief.get? z.1 = some z.2 := lookup_some_of_mem n2 hz
      refine hdiff _ _ _ hg (.belief D hD z.1 z'.1 ?_)
      unfold beliefAt
      rw [hz1, hxz]
      exact lookup_some_of_mem (n3 _ _ hz1) hz'
    · cases hi : D.iterations with
      | none => simp only [hi, numbers] at hxq; cases hxq
      | some z =>
        simp only [hi, numbers, List.mem_singleton] at hxq
        exact hdiff _ _ _ hg (.iterations D hD (hxq ▸ hi))
    · simp only [numbers, List.mem_singleton] at hxq
      exact hdiff _ _ _ hg (.time D hD hxq.symm)
    · obtain ⟨z, hz, hxz⟩ := mem_numbers_sortedObj.1 hxq
      rw [numbers, List.mem_singleton] at hxz
      exact hdiff _ _ _ hg (.trust D hD z.1 (hxz ▸ lookup_some_of_mem n1 hz))

theorem member_iff {α : Type} {fs : List (Text × WJson α)} {name : String} {v : WJson α} :
    Member (.obj fs) name v ↔ Dict.get? fs name.toList = some v :=
  ⟨Member.obj, fun h => ⟨fs, rfl, h⟩⟩

theorem noMember_iff {α : Type} {fs : List (Text × WJson α)} {name : String} :
    NoMember (.obj fs) name ↔ Dict.get? fs name.toList = none :=
  ⟨fun ⟨_, e, h⟩ => by cases e; exact h, fun h => ⟨fs, rfl, h⟩⟩

theorem imagery_get (aenv : AnswerEnv X Ex) (out : WebOut X Ex) : ∃ fs, imageryJson aenv out = .obj fs ∧
    Dict.get? fs "graph".toList = some (.str (pyDumps aenv.showImg out.graph.toW)) ∧
    Dict.get? fs "animation".toList = out.animation.map fun doc => .str (pyDumps aenv.showImg doc.toW) := by
  refine ⟨_, rfl, ?_, ?_⟩
  all_goals
    simp only [get?_member, get?_cons_eq]
    simp only [show ∀ k : Text, Dict.get? ([] : List (Text × WJson Ex)) k = none from fun _ => rfl]
    simp (config := {decide := true}) only [↓reduceIte]
  split <;> rename_i e <;> rw [e]

theorem diff_get (D : RawDiff Ex) : ∃ fs, diffJson D = .obj fs ∧
    Dict.get? fs "trust".toList = some (sortedObj textLt id .num D.trust) ∧
    Dict.get? fs "belief".toList = some (sortedObj textLt id (sortedObj textLt id .num) D.belief) := by
  refine ⟨_, rfl, ?_, ?_⟩
  all_goals
    simp only [get?_cons_eq]
    simp (config := {decide := true}) only [↓reduceIte]

theorem received_of_reads {env : Env X .exact} {aenv : AnswerEnv X Ex} (hsame : SameTexts env aenv) {Js : JsonReader ℝ}
    {out : WebOut X Ex} (hm : Made env out)
    (hdoc : ∀ doc, doc = out.graph ∨ out.animation = some doc → ∀ x ∈ numbers doc.toW, Literal aenv.showImg Js x)
    {o : JsOut} (h : JsReads Js (outJson aenv out) o) : Received env out o := by
  obtain ⟨fs, e, g1, g2, g3, g4, g5, g6⟩ := outJson_get aenv out
  obtain ⟨im, ei, i1, i2⟩ := imagery_get aenv out
  have hparse : ∀ doc, doc = out.graph ∨ out.animation = some doc →
      (parseJson Js (pyDumps aenv.showImg doc.toW)).map Json.ofW = some doc := by
    intro doc hd
    rw [C102_round_trip (hdoc doc hd), Option.map_some, ofW_toW]
  obtain ⟨j1, j2, -, -, j5, j6, j7⟩ := h
  rw [e] at j1 j2 j5 j6 j7
  constructor
  · intro t ht
    obtain ⟨w, hw, hn⟩ := j1
    rw [member_iff, g1, ht] at hw
    cases hw
    rw [outValJson] at hn
    have := numbersOf_sorted hn
    rwa [hsame.nat] at this
  · intro b hb
    obtain ⟨w, hw, hn⟩ := j2
    rw [member_iff, g2, hb] at hw
    cases hw
    rw [outValJson] at hn
    have := objectsOf_sorted hn
    rwa [hsame.nat, hsame.val] at this
  · obtain ⟨w, t, h1, h2, h3⟩ := j5
    rw [member_iff, g5] at h1
    cases h1
    rw [ei, member_iff, i1] at h2
    cases h2
    rw [hparse _ (.inl rfl)] at h3
    exact (Option.some.inj h3).symm
  · obtain ⟨w, h1, h2⟩ := j6
    rw [member_iff, g5] at h1
    cases h1
    split at h2
    · rename_i ha
      rw [ei, noMember_iff, i2] at h2
      rw [ha]
      cases hoa : out.animation with
      | none => rfl
      | some doc => rw [hoa] at h2; cases h2
    · rename_i doc ha
      obtain ⟨t, h2, h3⟩ := h2
      rw [ei, member_iff, i2] at h2
      cases hoa : out.animation with
      | none => rw [hoa] at h2; cases h2
      | some doc' =>
        rw [hoa] at h2
        cases h2
        rw [hparse doc' (.inr hoa)] at h3
        rw [ha, ← h3]
  · intro hd
    split at j7
    · assumption
    · obtain ⟨D, t, b, h1, -⟩ := j7
      rw [member_iff, g6, hd] at h1
      cases h1
  · intro D hD
    split at j7
    · rw [noMember_iff, g6, hD] at j7
      cases j7
    · rename_i E hE
      obtain ⟨D', t, b, h1, h2, h3, h4, h5⟩ := j7
      rw [member_iff, g6, hD] at h1
      cases h1
      obtain ⟨ds, ed, d1, d2⟩ := diff_get D
      rw [ed, member_iff, d1] at h2
      rw [ed, member_iff, d2] at h4
      cases h2
      cases h4
      obtain ⟨n1, n2, n3⟩ := hm.diff D hD
      refine ⟨E, hE, fun k => ?_, fun k k' => beliefAt_of_perm n2 n3 (objectsOf_sorted h5) k k'⟩
      have hp := numbersOf_sorted h3
      rw [show (D.trust.map fun p => (id p.1, p.2)) = D.trust from List.map_id' _] at hp
      rw [← get?_map_snd]
      exact get?_of_perm hp n1 k

theorem mem_num {α : Type} (x : α) : x ∈ numbers (.num x) := by rw [numbers]; exact List.mem_singleton_self x

theorem reads_exists {env : Env X .exact} {aenv : AnswerEnv X Ex} {Js : JsonReader ℝ} {out : WebOut X Ex} (hm : Made env out)
    (hdoc : ∀ doc, doc = out.graph ∨ out.animation = some doc → ∀ x ∈ numbers doc.toW, Literal aenv.showImg Js x)
    (hfin : ∀ x ∈ numbers (outJson aenv out), ∃ y, x = Ex.fin y) : ∃ o, JsReads Js (outJson aenv out) o := by
  obtain ⟨fs, e, g1, g2, g3, g4, g5, g6⟩ := outJson_get aenv out
  obtain ⟨im, ei, i1, i2⟩ := imagery_get aenv out
  obtain ⟨⟨r, m1, m2, m3, m4, -, -⟩, -⟩ := hm
  have hparse : ∀ doc, doc = out.graph ∨ out.animation = some doc →
      (parseJson Js (pyDumps aenv.showImg doc.toW)).map Json.ofW = some doc := by
    intro doc hd
    rw [C102_round_trip (hdoc doc hd), Option.map_some, ofW_toW]
  rw [m1] at g1
  rw [m2] at g2
  rw [m3] at g3
  rw [m4] at g4
  have hin : ∀ {k v}, Dict.get? fs k = some v → ∀ x ∈ numbers v, ∃ y, x = Ex.fin y := by
    intro k v hk x hx
    refine hfin x ?_
    rw [e, mem_numbers_obj]
    exact ⟨_, mem_of_lookup_some hk, hx⟩
  obtain ⟨lt, hlt⟩ := numbersOf_exists (fun a b : Nat => decide (a < b)) aenv.strNat (d := r.trust) fun p hp =>
    hin g1 p.2 (by rw [outValJson]; exact mem_numbers_sortedObj.2 ⟨p, hp, (mem_num _)⟩)
  obtain ⟨lb, hlb⟩ := objectsOf_exists (fun a b : Nat => decide (a < b)) aenv.strNat aenv.ltVal aenv.strVal (d := r.belief)
    fun q hq p hp => hin g2 p.2 (by rw [outValJson]; exact mem_numbers_sortedObj.2 ⟨q, hq, mem_numbers_sortedObj.2 ⟨p, hp, (mem_num _)⟩⟩)
  obtain ⟨time, htime⟩ := hin g3 r.time (by rw [outValJson, numbers]; exact List.mem_singleton_self _)
  have hdiff : ∃ od : Option JsDiff, match od with
      | none => NoMember (outJson aenv out) "diff"
      | some E => ∃ D t b, Member (outJson aenv out) "diff" D ∧ Member D "trust" t ∧ NumbersOf t E.trust ∧
          Member D "belief" b ∧ ObjectsOf b E.belief := by
    cases hD : out.diff with
    | none => exact ⟨none, by rw [e]; exact noMember_iff.2 (by rw [g6, hD]; rfl)⟩
    | some D =>
      rw [hD] at g6
      obtain ⟨ds, ed, d1, d2⟩ := diff_get D
      have hin' : ∀ {k v}, Dict.get? ds k = some v → ∀ x ∈ numbers v, ∃ y, x = Ex.fin y := by
        intro k v hk x hx
        refine hin g6 x ?_
        rw [ed, mem_numbers_obj]
        exact ⟨_, mem_of_lookup_some hk, hx⟩
      obtain ⟨l1, h1⟩ := numbersOf_exists textLt id (d := D.trust) fun p hp =>
        hin' d1 p.2 (mem_numbers_sortedObj.2 ⟨p, hp, (mem_num _)⟩)
      obtain ⟨l2, h2⟩ := objectsOf_exists textLt id textLt id (d := D.belief)
        fun q hq p hp => hin' d2 p.2 (mem_numbers_sortedObj.2 ⟨q, hq, mem_numbers_sortedObj.2 ⟨p, hp, (mem_num _)⟩⟩)
      refine ⟨some ⟨l1, l2⟩, _, _, _, by rw [e]; exact member_iff.2 g6, by rw [ed]; exact member_iff.2 d1, h1,
        by rw [ed]; exact member_iff.2 d2, h2⟩
  obtain ⟨od, hod⟩ := hdiff
  refine ⟨⟨⟨lt, lb, time, r.iterations.map fun n => (n : ℝ)⟩, out.graph, out.animation, od⟩, ?_, ?_, ?_, ?_, ?_, ?_, hod⟩
  · exact ⟨_, by rw [e]; exact member_iff.2 g1, hlt⟩
  · exact ⟨_, by rw [e]; exact member_iff.2 g2, hlb⟩
  · rw [e]
    refine member_iff.2 (g3.trans ?_)
    rw [← htime]; rfl
  · rw [e]
    refine member_iff.2 (g4.trans ?_)
    cases r.iterations with
    | none => rfl
    | some n => rfl
  · exact ⟨_, _, by rw [e]; exact member_iff.2 g5, by rw [ei]; exact member_iff.2 i1, hparse _ (.inl rfl)⟩
  · refine ⟨_, by rw [e]; exact member_iff.2 g5, ?_⟩
    cases ha : out.animation with
    | none => exact by rw [ei]; exact noMember_iff.2 (by rw [i2, ha]; rfl)
    | some doc => exact ⟨_, by rw [ei]; exact member_iff.2 (by rw [i2, ha]; rfl), hparse doc (.inr ha)⟩

theorem webLoop_keys {R : Rounding} {env : Env X R} {req : Request} {ps : Dict Text (PVal (FP R))} {d : Dataset Nat Nat X (FP R)}
    (labels : List Text) : ∀ (i : Nat) (data data' : Dict Text (WebOut X (FP R))) (ms ms' : List Text),
      webLoop env req ps d i labels data ms = .ok (.ok data' ms') → ∀ label, label ∈ data'.keys ↔ label ∈ data.keys ∨ label ∈ labels := by
  induction labels with
  | nil => intro i data data' ms ms' h label; cases h; simp
  | cons a labels ih =>
    intro i data data' ms ms' h label
    rw [webLoop] at h
    split at h
    · cases h
    · cases h
    · rw [ih _ _ _ _ _ h label, keys_set]
      split
      · rename_i hk
        constructor
        · rintro (h | h)
          · exact .inl h
          · exact .inr (List.mem_cons_of_mem _ h)
        · rintro (h | h)
          · exact .inl h
          · rcases List.mem_cons.1 h with rfl | h
            · exact .inl hk
            · exact .inr h
      · simp [or_assoc]

/-- **C105**.  An answer has an output for every algorithm requested, and no other. -/
theorem C105_labels {R : Rounding} {env : Env X R} {req : Request} {data : Dict Text (WebOut X (FP R))} {messages : List Text}
    (h : webRun env req = .ok (.ok data messages)) (label : Text) : label ∈ data.keys ↔ label ∈ req.algorithm := by
  unfold webRun at h
  split at h
  · cases h
  · cases h
  · cases h
  · split at h
    · cases h
    · cases h
    · rw [webLoop_keys _ _ _ _ _ _ h label]
      simp [Dict.keys]

/-- **C105**.  The page reads from the text of an answer the outputs that were computed. -/
theorem C105_answer {env : Env X .exact} {aenv : AnswerEnv X Ex} (hsame : SameTexts env aenv) {req : Request}
    {data : Dict Text (WebOut X Ex)} {messages : List Text} (h : webRun env req = .ok (.ok data messages))
    {st : JsonStyle} (hst : FlaskStyle st) {showNum : Ex → Text} {Rb : JsonReader Ex} {Js : JsonReader ℝ}
    (hnum : ∀ x ∈ numbers (answerJson aenv data messages), (∃ y, x = Ex.fin y) ∧ Literal showNum Rb x)
    (hdoc : ∀ label out doc, data.get? label = some out → doc = out.graph ∨ out.animation = some doc →
      ∀ x ∈ numbers doc.toW, Literal aenv.showImg Js x) :
    ∃ w, parseJson Rb (answerText st showNum aenv data messages) = some w ∧
      (∃ data', JsReadsAll Js w data' messages) ∧
      ∀ data' messages', JsReadsAll Js w data' messages' → messages' = messages ∧ ReceivedAll env data data' := by
  obtain ⟨hnd, hmade⟩ := webRun_made h
  have hsorted := pySorted_perm (fun a b : Text × WebOut X Ex => textLt a.1 b.1) data
  have hget : ∀ p ∈ data, data.get? p.1 = some p.2 := fun p hp => lookup_some_of_mem hnd hp
  refine ⟨answerJson aenv data messages, C105_read hst fun x hx => (hnum x hx).2, ?_, ?_⟩
  · have key : ∀ s : List (Text × WebOut X Ex), (∀ p ∈ s, p ∈ data) →
        ∃ data' : List (Text × JsOut), List.Forall₂ (fun (x : Text × JsOut) (y : Text × WebOut X Ex) =>
          x.1 = y.1 ∧ JsReads Js (outJson aenv y.2) x.2) data' s := by
      intro s hs
      induction s with
      | nil => exact ⟨[], .nil⟩
      | cons p s ih =>
        obtain ⟨l, hl⟩ := ih fun q hq => hs q (List.mem_cons_of_mem _ hq)
        have hp := hget p (hs p List.mem_cons_self)
        obtain ⟨o, ho⟩ := reads_exists (hmade _ _ hp) (fun doc hd => hdoc _ _ doc hp hd) fun x hx =>
          (hnum x (mem_numbers_obj.2 ⟨_, List.mem_cons_self,
            mem_numbers_sortedObj.2 ⟨p, hs p List.mem_cons_self, hx⟩⟩)).1
        exact ⟨(p.1, o) :: l, .cons ⟨rfl, ho⟩ hl⟩
    obtain ⟨data', hd'⟩ := key _ fun p hp => hsorted.mem_iff.1 hp
    refine ⟨data', ?_, ?_, _, data', ?_, .refl _,
      (List.forall₂_map_right_iff (f := fun p : Text × WebOut X Ex => (id p.1, outJson aenv p.2))).2 hd'⟩
    · exact member_iff.2 rfl
    · exact member_iff.2 rfl
    · exact member_iff.2 rfl
  · rintro data' messages' ⟨-, h2, fs, data2, h3, h4, h5⟩
    have e2 := member_iff.1 h2
    have e3 := member_iff.1 h3
    cases (show some (sortedObj textLt id (outJson aenv) data) = some (.obj fs) from e3)
    have hmsg : messages.map (WJson.str (α := Ex)) = messages'.map .str := by
      have := Option.some.inj (show some (WJson.arr (messages.map (WJson.str (α := Ex)))) = some (.arr (messages'.map .str)) from e2)
      injection this
    refine ⟨(List.map_injective_iff.2 (fun a b h => by injection h) hmsg).symm, ?_⟩
    rw [List.forall₂_map_right_iff] at h5
    have hkeys : data2.map Prod.fst = (pySorted (fun a b : Text × WebOut X Ex => textLt a.1 b.1) data).map Prod.fst := by
      generalize pySorted (fun a b : Text × WebOut X Ex => textLt a.1 b.1) data = s at h5
      clear h3 h4 hsorted
      induction h5 with
      | nil => rfl
      | cons h _ ih => rw [List.map_cons, List.map_cons, ih, h.1]; rfl
    have hperm : (data'.map Prod.fst).Perm data.keys := (h4.symm.map Prod.fst).trans (hkeys ▸ hsorted.map Prod.fst)
    refine ⟨hperm.nodup_iff.2 hnd, fun label => hperm.mem_iff, ?_⟩
    intro label o ho
    obtain ⟨y, hy, hl, hr⟩ : ∃ y ∈ pySorted (fun a b : Text × WebOut X Ex => textLt a.1 b.1) data,
        label = id y.1 ∧ JsReads Js (outJson aenv y.2) o := by
      have hm : (label, o) ∈ data2 := h4.mem_iff.2 ho
      generalize pySorted (fun a b : Text × WebOut X Ex => textLt a.1 b.1) data = s at h5
      clear h3 h4 hsorted hkeys
      induction h5 with
      | nil => cases hm
      | @cons a b _ _ h _ ih =>
        rcases List.mem_cons.1 hm with rfl | hm
        · exact ⟨b, List.mem_cons_self, h.1, h.2⟩
        · obtain ⟨y, hy, h⟩ := ih hm
          exact ⟨y, List.mem_cons_of_mem _ hy, h⟩
    have hg := hget y (hsorted.mem_iff.1 hy)
    cases hl
    exact ⟨y.2, hg, received_of_reads hsame (hmade _ _ hg) (fun doc hd => hdoc _ _ doc hg hd) hr⟩

/-- **C105**.  This happens if "previous_results" gives the trust in a source as `NaN`. -/
theorem C105_nan {env : Env X .exact} {prev : Option Text} {l : List (Nat × Nat × X)} {d : Dataset Nat Nat X Ex}
    (hd : Dataset.mk' l false none = .ok d) {i : Nat} {a : AnyAlg Ex} {r : Result Nat Nat X Ex} {out : WebOut X Ex}
    (h : Presented env prev l d i a r out) {t : Text} {j : WJson Ex} {trust : Dict Text Ex} {belief : Dict Text (Dict Text Ex)}
    {time : Ex} {iterations : Option Ex} (hp : prev = some t) (hj : env.parseJson t = some j)
    (he : Earlier j trust belief time iterations) {s : Nat} (hs : s ∈ allSources l)
    (hn : trust.get? (env.strNat s) = some Ex.nan) : Difference out Ex.nan := by
  obtain ⟨D, hD, hc⟩ := h.diff.2 t j trust belief time iterations hp hj he
  have e := ((mk'_ok_iff _ (fp_one_ne_zero .exact) _ _ _).1 hd).1
  have hrun := h.run
  rw [e] at hd hrun
  obtain ⟨x, hx⟩ := Option.isSome_iff_exists.1 (((complete_run hd hrun).1 s).2 hs)
  refine .trust D hD (env.strNat s) ?_
  rw [hc.trust_of, hn, hx]
  cases x <;> rfl

/-! ### Examples -/

/-- Any finite set of numbers can be written and read. -/
theorem literals {α : Type} [DecidableEq α] (L : List α) : ∃ (showNum : α → Text) (Rb : JsonReader α), Rb.words = [] ∧
    ∀ x ∈ L, Literal showNum Rb x := by
  refine ⟨fun x => List.replicate (L.idxOf x + 1) '1', ⟨fun t => L[t.length - 1]?, []⟩, rfl, fun x hx => ⟨by simp, ?_, ?_⟩⟩
  · intro c hc
    rw [(List.mem_replicate.1 hc).2]
    decide
  · have hi : L.idxOf x < L.length := List.idxOf_lt_length_of_mem hx
    show L[(List.replicate (L.idxOf x + 1) '1').length - 1]? = some x
    rw [List.length_replicate, Nat.add_sub_cancel, List.getElem?_eq_getElem hi, List.getElem_idxOf]

open Classical in
/-- Sums and AverageLog on a matrix, 20 iterations: the page reads the answer. -/
example (st : JsonStyle) (hst : FlaskStyle st) : ∃ req, ∃ data : Dict Text (WebOut (Fin 10) Ex), ∃ messages,
    ∃ (aenv : AnswerEnv (Fin 10) Ex) (showNum : Ex → Text) (Rb : JsonReader Ex) (Js : JsonReader ℝ) (w : WJson Ex) (data' : List (Text × JsOut)),
    webRun demoEnv req = .ok (.ok data messages) ∧ (∀ label, label ∈ data.keys ↔ label ∈ ["sums".toList, "average_log".toList]) ∧
    parseJson Rb (answerText st showNum aenv data messages) = some w ∧ JsReadsAll Js w data' messages ∧
    ReceivedAll demoEnv data data' := by
  have hh : ∀ j v, demoGrid[0]? = some [some 1, some 2] ∧ [some (1 : Fin 10), some 2][j]? = some (some v) →
      Holds demoGrid 0 j v := fun j v h => ⟨_, h.1, h.2⟩
  obtain ⟨req, d, resp, h1, h2, h3, hans, h4⟩ := C74_answered demoEnv_ok demo_form (m := 2) (n := 2) (g := demoGrid)
    (by decide) (by decide) ⟨rfl, by unfold Rect demoGrid; decide⟩ ⟨0, 0, 1, hh 0 1 ⟨rfl, rfl⟩⟩
    ["sums".toList, "average_log".toList] (by simp) (by
      intro t ht
      simp only [List.mem_cons, List.not_mem_nil, or_false] at ht
      rcases ht with rfl | rfl
      · exact ⟨.sums, rfl, nofun, nofun⟩
      · exact ⟨.averageLog, rfl, nofun, fun _ => ⟨0, 0, 1, 1, 2, by decide, hh 0 1 ⟨rfl, rfl⟩, hh 1 2 ⟨rfl, rfl⟩⟩⟩)
    (.fixed 20 "l1".toList none (by decide)) false none nofun
  rcases h4 with ⟨data, messages, rfl, hk⟩ | ⟨-, h4⟩
  swap
  · exact absurd h4 (by decide)
  have hprev : req.previousResults = none := by
    unfold formRequest at h1
    simp only [bind, Except.bind, pure, Except.pure] at h1
    split at h1; · cases h1
    cases h1
    rfl
  have hnodiff : ∀ label out, data.get? label = some out → out.diff = none := by
    intro label out ho
    generalize hresp : Response.ok data messages = resp at hans
    cases hans with
    | error => cases hresp
    | ok data0 mss e1 e2 e3 e4 hms =>
      cases hresp
      obtain ⟨i, c, a, r, -, -, -, -, hp⟩ := e4 label out ho
      exact hp.diff.1 hprev
  obtain ⟨showImg, Js, -, hJs⟩ := literals (data.flatMap fun p => numbers p.2.graph.toW ++ match p.2.animation with
    | none => []
    | some doc => numbers doc.toW)
  let aenv : AnswerEnv (Fin 10) Ex := ⟨demoEnv.strNat, demoEnv.strVal, fun a b => decide (a < b), fun v => Ex.fin (v.val : ℝ), showImg⟩
  obtain ⟨showNum, Rb, -, hRb⟩ := literals (numbers (answerJson aenv data messages))
  have hfin := C105_finite aenv h3 (fun _ _ => ⟨0, rfl⟩) (fun v => ⟨_, rfl⟩) fun label out x ho hx => by
    have := hnodiff label out ho
    cases hx with
    | trust D h => rw [this] at h; cases h
    | belief D h => rw [this] at h; cases h
    | time D h => rw [this] at h; cases h
    | iterations D h => rw [this] at h; cases h
  obtain ⟨w, hw, ⟨data', hd'⟩, hall⟩ := C105_answer (env := demoEnv) (aenv := aenv) ⟨rfl, rfl⟩ h3 hst (showNum := showNum)
    (Rb := Rb) (Js := Js) (fun x hx => ⟨hfin x hx, hRb x hx⟩) (by
      intro label out doc ho hdoc x hx
      refine hJs x (List.mem_flatMap.2 ⟨_, mem_of_lookup_some ho, List.mem_append.2 ?_⟩)
      rcases hdoc with rfl | hdoc
      · exact .inl hx
      · right; simp only [hdoc]; exact hx)
  exact ⟨req, data, messages, aenv, showNum, Rb, Js, w, data', h3, hk, hw, hd', (hall data' messages hd').2⟩

/-- A difference that is `NaN`. -/
example (st : JsonStyle) (hst : FlaskStyle st) : ∃ (aenv : AnswerEnv (Fin 10) Ex) (showNum : Ex → Text) (Rb : JsonReader Ex),
    parseJson Rb (answerText st showNum aenv [("voting".toList, ⟨[], .null, none, some ⟨[("0".toList, Ex.nan)], [], Ex.fin 0, none⟩⟩)] [])
      = none := by
  let showNum : Ex → Text := fun x => match x with
    | .nan => "NaN".toList
    | _ => "0".toList
  let Rb : JsonReader Ex := ⟨fun t => if t = "0".toList then some (Ex.fin 0) else none, []⟩
  refine ⟨⟨fun _ => [], fun _ => [], fun _ _ => false, fun _ => Ex.fin 0, fun _ => []⟩, showNum, Rb, ?_⟩
  have hn : NotANumber showNum Rb Ex.nan := ⟨by decide, rfl, rfl⟩
  refine C105_refused hst rfl ?_ (label := "voting".toList) rfl (.trust _ rfl "0".toList rfl) hn
  intro x hx
  have hx' : x = Ex.nan ∨ x = Ex.fin 0 := by
    simp only [answerJson, mem_numbers_obj, List.mem_cons, List.not_mem_nil, or_false] at hx
    obtain ⟨p, hp, hx⟩ := hx
    rcases hp with rfl | rfl | rfl
    · obtain ⟨q, hq, hx⟩ := mem_numbers_sortedObj.1 hx
      rw [List.mem_singleton] at hq
      subst hq
      rcases numbers_outJson hx with ⟨f, v, hf, -⟩ | ⟨D, hD, hx⟩
      · cases hf
      · cases hD
        simp only [diffJson, mem_numbers_obj, List.mem_cons, List.not_mem_nil, or_false] at hx
        obtain ⟨z, hz, hx⟩ := hx
        rcases hz with rfl | rfl | rfl | rfl
        · obtain ⟨_, h, -⟩ := mem_numbers_sortedObj.1 hx
          cases h
        · simp only [numbers] at hx; cases hx
        · simp only [numbers, List.mem_singleton] at hx; exact .inr hx
        · obtain ⟨q, hq, hx⟩ := mem_numbers_sortedObj.1 hx
          rw [List.mem_singleton] at hq
          subst hq
          rw [numbers, List.mem_singleton] at hx
          exact .inl hx
    · simp [numbers, numbersOfList] at hx
    · simp [numbers] at hx
  rcases hx' with rfl | rfl
  · exact .inr hn
  · have h0 : ∀ t : Text, t = "0".toList → Rb.number t = some (Ex.fin 0) := fun t ht => if_pos ht
    exact .inl ⟨by decide, by decide, h0 _ rfl⟩

end
end TD
