import Verif.Spec.Web
import Verif.Props.Client
import Verif.Props.Matrix
import Verif.Props.Sound
import Verif.Props.Results
import Verif.Props.Unbounded
import Verif.Props.Breakdown
/-!
# C52: answers to web requests
-/

namespace TD
open Spec

section params
variable {α : Type} [Arith α] (digit : Char → Option Nat) (parseFloat : Text → Option α)

/-- `params[key] = value` for a list of assignments. -/
theorem get?_setAll {κ ν : Type} [DecidableEq κ] (kvs : List (κ × ν)) (acc : Dict κ ν) (k : κ) :
    (kvs.foldl (fun (a : Dict κ ν) p => a.set p.1 p.2) acc).get? k =
      ((kvs.reverse.find? fun kv => decide (kv.1 = k)).map Prod.snd).or (acc.get? k) := by
  induction kvs generalizing acc with
  | nil => simp
  | cons p ps ih =>
    rw [List.foldl_cons, ih, get?_set, List.reverse_cons, List.find?_append]
    cases h : ps.reverse.find? fun kv => decide (kv.1 = k) with
    | some q => simp
    | none =>
      by_cases hk : k = p.1
      · subst hk; simp
      · have hk' : ¬ p.1 = k := fun h => hk h.symm
        simp [hk, hk']

theorem nodup_setAll {κ ν : Type} [DecidableEq κ] (kvs : List (κ × ν)) (acc : Dict κ ν)
    (h : acc.keys.Nodup) : (kvs.foldl (fun (a : Dict κ ν) p => a.set p.1 p.2) acc).keys.Nodup := by
  induction kvs generalizing acc with
  | nil => exact h
  | cons p ps ih => exact ih _ (nodup_set h p.1 p.2)

theorem paramLines (lines : List Text) (acc : Dict Text (PVal α)) :
    (∀ ps, lines.foldlM (fun (acc : Dict Text (PVal α)) line => do
        let p ← algorithmParameter digit parseFloat line
        return acc.set p.1 p.2) acc = .ok ps ↔
      ∃ kvs, List.Forall₂ (fun line kv => algorithmParameter digit parseFloat line = .ok kv) lines kvs ∧
        ps = kvs.foldl (fun (a : Dict Text (PVal α)) p => a.set p.1 p.2) acc) ∧
    (∀ e, lines.foldlM (fun (acc : Dict Text (PVal α)) line => do
        let p ← algorithmParameter digit parseFloat line
        return acc.set p.1 p.2) acc = .error e →
      ∃ line ∈ lines, algorithmParameter digit parseFloat line = .error e) := by
  induction lines generalizing acc with
  | nil =>
    refine ⟨fun ps => ?_, nofun⟩
    constructor
    · intro h; cases h; exact ⟨[], .nil, rfl⟩
    · rintro ⟨kvs, h, rfl⟩; cases h; rfl
  | cons line lines ih =>
    simp only [List.foldlM_cons, bind, Except.bind, pure, Except.pure] at ih ⊢
    cases hp : algorithmParameter digit parseFloat line with
    | error e =>
      refine ⟨fun ps => ⟨nofun, ?_⟩, ?_⟩
      · rintro ⟨kvs, h, -⟩
        cases h with
        | cons h _ => rw [hp] at h; cases h
      · intro e' h; cases h; exact ⟨line, by simp, hp⟩
    | ok p =>
      obtain ⟨h1, h2⟩ := ih (acc.set p.1 p.2)
      refine ⟨fun ps => ?_, ?_⟩
      · dsimp only
        rw [h1 ps]
        constructor
        · rintro ⟨kvs, h, e⟩
          exact ⟨p :: kvs, .cons hp h, by rw [e]; rfl⟩
        · rintro ⟨kvs, h, e⟩
          cases h with
          | cons h hs =>
            rw [hp] at h
            cases h
            exact ⟨_, hs, e⟩
      · intro e h
        obtain ⟨line', hm, hl⟩ := h2 e h
        exact ⟨line', by simp [hm], hl⟩

/-- **C52.** The text of the parameters is accepted exactly if every line is an assignment
of a meaningful value, and then gives the dictionary of these values; any other
text raises `ValueError`. -/
theorem C52_parameters (hnl : digit '\n' = none) (text : Option Text) :
    (∀ ps, getParamDict digit parseFloat text = .ok ps → ParamsMean digit parseFloat text ps) ∧
    (∀ ps, ParamsMean digit parseFloat text ps → ∃ ps', getParamDict digit parseFloat text = .ok ps' ∧
      ∀ k, ps'.get? k = ps.get? k) ∧
    (∀ e, getParamDict digit parseFloat text = .error e → e = .valueError) := by
  cases text with
  | none =>
    refine ⟨?_, ?_, nofun⟩
    · intro ps h; cases h; rfl
    · rintro ps h; exact ⟨[], rfl, fun k => by rw [show ps = [] from h]⟩
  | some t =>
    obtain ⟨h1, h2⟩ := paramLines digit parseFloat (split '\n' t) []
    refine ⟨?_, ?_, ?_⟩
    · intro ps h
      obtain ⟨kvs, hk, rfl⟩ := (h1 ps).1 h
      refine ⟨_, kvs, split_separated _ _, ?_, ?_, nodup_setAll _ _ (by simp [Dict.keys])⟩
      · refine hk.imp ?_
        intro line kv h
        exact ((C49_parameter digit parseFloat hnl line).1 kv.1 kv.2).1 h
      · intro k
        rw [get?_setAll]
        simp [Dict.get?]
    · rintro ps ⟨lines, kvs, hs, hk, hg, -⟩
      obtain rfl := split_of_separated hs
      refine ⟨_, (h1 _).2 ⟨kvs, ?_, rfl⟩, ?_⟩
      · refine hk.imp ?_
        intro line kv h
        exact ((C49_parameter digit parseFloat hnl line).1 kv.1 kv.2).2 h
      · intro k
        rw [get?_setAll, hg]
        simp [Dict.get?]
    · intro e h
      obtain ⟨line, -, hl⟩ := h2 e h
      exact (C49_parameter digit parseFloat hnl line).2 e hl

omit [Arith α] in
/-- Every value in the dictionary has a meaning. -/
theorem params_mean {text : Option Text} {ps : Dict Text (PVal α)}
    (h : ParamsMean digit parseFloat text ps) {k : Text} {v : PVal α} (hv : ps.get? k = some v) :
    ∃ value, Means digit parseFloat k value v := by
  cases text with
  | none => rw [show ps = [] from h] at hv; cases hv
  | some t =>
    obtain ⟨lines, kvs, -, hk, hg, -⟩ := h
    rw [hg] at hv
    cases hf : kvs.reverse.find? fun kv => decide (kv.1 = k) with
    | none => rw [hf] at hv; cases hv
    | some kv =>
      rw [hf] at hv
      have e1 : kv.2 = v := Option.some.inj hv
      have e2 : kv.1 = k := by simpa using List.find?_some hf
      have hm : kv ∈ kvs := List.mem_reverse.1 (List.mem_of_find?_eq_some hf)
      obtain ⟨n, hn, e⟩ := List.getElem_of_mem hm
      have := hk.get (by rw [hk.length_eq]; exact hn) hn
      simp only [List.get_eq_getElem, e] at this
      obtain ⟨value, -, hm⟩ := this
      exact ⟨value, by rwa [e1, e2] at hm⟩

omit [Arith α] in
theorem means_kind {k t : Text} {v : PVal α} (h : Means digit parseFloat k t v) : WellKinded k v := by
  cases h with
  | iterator t it h => rfl
  | priors p => rfl
  | num _ _ _ h1 h2 _ => exact ⟨h1, h2⟩

end params

section
variable {X : Type} [DecidableEq X] {R : Rounding}

/-- **C52.** Requests without algorithm or matrix, with a malformed parameter, or with a
malformed matrix (rows of different lengths, or an entry that is not a number) are
answered with status 400. -/
theorem C52_bad_request (env : Env X R) (hnl : env.digit '\n' = none) (req : Request) :
    (req.algorithm = [] ∨ req.csv = none ∨ req.csv = some [] →
      webRun env req = .ok (.error 400)) ∧
    ((¬ ∃ ps, ParamsMean env.digit env.parseFloat req.parameters ps) →
      webRun env req = .ok (.error 400)) ∧
    (∀ t fields, req.csv = some t → Table (t.filter fun c => c ≠ '_') fields →
      (∃ r0 ∈ fields.head?, ∃ r ∈ fields, r.length ≠ r0.length) ∨
      (∃ r ∈ fields, ∃ v ∈ r, v ≠ [] ∧ env.parseValue v = .bad) →
      webRun env req = .ok (.error 400)) := by
  have hin : ∀ csv, (¬ ∃ ps, ParamsMean env.digit env.parseFloat req.parameters ps) ∨
      (∃ fields, Table (csv.filter fun c => c ≠ '_') fields ∧
      ((∃ r0 ∈ fields.head?, ∃ r ∈ fields, r.length ≠ r0.length) ∨
      (∃ r ∈ fields, ∃ v ∈ r, v ≠ [] ∧ env.parseValue v = .bad))) →
      webInputs env req csv = .error .valueError := by
    intro csv h
    obtain ⟨h1, -, h3⟩ := C52_parameters env.digit env.parseFloat hnl req.parameters
    unfold webInputs
    cases hp : getParamDict env.digit env.parseFloat req.parameters with
    | error e => rw [h3 e hp]; rfl
    | ok ps =>
      rcases h with h | ⟨fields, ht, hb⟩
      · exact absurd ⟨ps, h1 ps hp⟩ h
      · have he := (C12_outcome env.parseValue _ fields ht).1.2 hb
        have := (C12_from_csv (α := FP R) (fp_one_ne_zero R) env.parseValue _).2 _ he
        simp only [bind, Except.bind, this]
  have hall : ∀ (h : req.csv ≠ none → req.csv ≠ some [] → req.algorithm ≠ [] →
      ∃ csv, req.csv = some csv ∧ webInputs env req csv = .error .valueError),
      webRun env req = .ok (.error 400) := by
    intro h
    obtain ⟨alg, csv, par, prev⟩ := req
    cases alg with
    | nil => cases csv <;> rfl
    | cons a as =>
      cases csv with
      | none => rfl
      | some t =>
        cases t with
        | nil => rfl
        | cons c cs =>
          obtain ⟨csv', e, h⟩ := h (by simp) (by simp) (by simp)
          cases e
          simp only [webRun, h]
  refine ⟨?_, ?_, ?_⟩
  · rintro (h | h | h)
    · exact hall fun _ _ h' => absurd h h'
    · exact hall fun h' _ _ => absurd h h'
    · exact hall fun _ h' _ => absurd h h'
  · intro h
    refine hall fun h1 _ _ => ?_
    obtain ⟨csv, hc⟩ := Option.ne_none_iff_exists'.1 h1
    exact ⟨csv, hc, hin csv (.inl h)⟩
  · intro t fields ht htab hb
    exact hall fun _ _ _ => ⟨t, ht, hin t (.inr ⟨fields, htab, hb⟩)⟩

end

/-! ### Results of runs as JSON -/

theorem foldlM_inv {β γ : Type} {P : γ → Prop} {f : γ → β → Except PyErr γ} {L : List β}
    (hf : ∀ acc p acc', P acc → f acc p = .ok acc' → P acc') {acc r : γ} (h : P acc)
    (hr : L.foldlM f acc = .ok r) : P r := by
  induction L generalizing acc with
  | nil => cases hr; exact h
  | cons p L ih =>
    rw [List.foldlM_cons] at hr
    simp only [bind, Except.bind] at hr
    split at hr; · cases hr
    rename_i acc' ha
    exact ih (hf _ _ _ h ha) hr

section
variable {S V X : Type} [DecidableEq S] [DecidableEq V] [DecidableEq X]

theorem trustDict_keyed {α : Type} (D : Dataset S V X α) (y : Vec α) {t : Dict S α}
    (h : D.trustDict y = .ok t) : t.keys.Nodup := by
  unfold Dataset.trustDict at h
  refine foldlM_inv (P := fun d : Dict S α => d.keys.Nodup) ?_ (by simp [Dict.keys]) h
  intro acc p acc' hacc e
  simp only [bind, Except.bind, pure, Except.pure] at e
  split at e; · cases e
  cases e
  exact nodup_set hacc _ _

theorem beliefDict_keyed {α : Type} (D : Dataset S V X α) (y : Vec α) {b : Dict V (Dict X α)}
    (h : D.beliefDict y = .ok b) : b.keys.Nodup ∧ ∀ v d, b.get? v = some d → d.keys.Nodup := by
  unfold Dataset.beliefDict at h
  refine foldlM_inv (P := fun b : Dict V (Dict X α) => b.keys.Nodup ∧
    ∀ v d, b.get? v = some d → d.keys.Nodup) ?_ ⟨by simp [Dict.keys], by simp [Dict.get?]⟩ h
  intro acc p acc' hacc e
  simp only [bind, Except.bind, pure, Except.pure] at e
  split at e; · cases e
  split at e; · cases e
  split at e; · cases e
  rename_i c hc var hvar A val hval
  cases e
  have hset : ∀ (a : Dict V (Dict X α)) (v : V) (d : Dict X α),
      (a.keys.Nodup ∧ ∀ v d, a.get? v = some d → d.keys.Nodup) → d.keys.Nodup →
      ((a.set v d).keys.Nodup ∧ ∀ v' d', (a.set v d).get? v' = some d' → d'.keys.Nodup) := by
    intro a v d ha hd
    refine ⟨nodup_set ha.1 _ _, ?_⟩
    intro v' d'
    rw [get?_set]
    split
    · intro e; cases e; exact hd
    · exact ha.2 v' d'
  have hacc' : ∀ a : Dict V (Dict X α), (a.keys.Nodup ∧ ∀ v d, a.get? v = some d → d.keys.Nodup) →
      ((a.set var (((a.get? var).getD []).set val p.2)).keys.Nodup ∧
        ∀ v d, (a.set var (((a.get? var).getD []).set val p.2)).get? v = some d → d.keys.Nodup) := by
    intro a ha
    refine hset _ _ _ ha (nodup_set ?_ _ _)
    cases hg : a.get? var with
    | none => simp [Dict.keys]
    | some d => exact ha.2 _ _ hg
  refine hacc' _ ?_
  split
  · exact hacc
  · exact hset _ _ _ hacc (by simp [Dict.keys])

/-- **C47.** Every result of a run, of any algorithm, satisfies the hypothesis of the
theorems about differences. -/
theorem C47_runs {α : Type} [Arith α] (a : AnyAlg α) (D : Dataset S V X α) (fuel : Nat)
    (clock : Nat → α) (r : Result S V X α) (h : a.run D fuel clock = .ok r) : WellKeyed r := by
  cases a with
  | voting =>
    simp only [AnyAlg.run, votingRun, bind, Except.bind, pure, Except.pure] at h
    split at h; · cases h
    split at h; · cases h
    split at h; · cases h
    rename_i t ht
    split at h; · cases h
    rename_i b hb
    cases h
    exact ⟨trustDict_keyed D _ ht, beliefDict_keyed D _ hb⟩
  | iter c =>
    simp only [AnyAlg.run, AlgCfg.run, bind, Except.bind, pure, Except.pure] at h
    split at h; · cases h
    split at h; · cases h
    rename_i t ht
    split at h; · cases h
    rename_i b hb
    cases h
    exact ⟨trustDict_keyed D _ ht, beliefDict_keyed D _ hb⟩
end

section
variable {α : Type} [Arith α]

theorem lookup_mapVal {κ ν μ : Type} [DecidableEq κ] (f : ν → μ) (d : Dict κ ν) (k : κ) :
    Dict.get? (d.map fun p => (p.1, f p.2)) k = (d.get? k).map f := by
  unfold Dict.get?
  induction d with
  | nil => rfl
  | cons p d ih =>
    rw [List.map_cons, List.lookup_cons, List.lookup_cons]
    split <;> simp_all

theorem get_mapVal {κ ν μ : Type} [DecidableEq κ] (f : ν → μ) (d : Dict κ ν) (k : κ) :
    Dict.get (d.map fun p => (p.1, f p.2)) k = (d.get k).map f := by
  unfold Dict.get
  rw [lookup_mapVal]
  cases d.get? k <;> rfl

theorem keys_mapVal {κ ν μ : Type} (f : ν → μ) (d : Dict κ ν) :
    Dict.keys (d.map fun p => (p.1, f p.2)) = d.keys := by
  simp [Dict.keys]

theorem lookup_mapKey {κ κ' ν : Type} [DecidableEq κ] [DecidableEq κ'] {g : κ → κ'}
    (hg : Function.Injective g) (d : Dict κ ν) (k : κ) :
    Dict.get? (d.map fun p => (g p.1, p.2)) (g k) = d.get? k := by
  unfold Dict.get?
  induction d with
  | nil => rfl
  | cons p d ih =>
    rw [List.map_cons, List.lookup_cons, List.lookup_cons, ih]
    by_cases h : k = p.1
    · subst h; simp
    · have : g k ≠ g p.1 := fun e => h (hg e)
      have e1 : (g k == g p.1) = false := by simp [this]
      have e2 : (k == p.1) = false := by simp [h]
      rw [e1, e2]

theorem rawDiffDict_nums (ord : List Text → List Text) (d1 d2 : Dict Text α) :
    rawDiffDict ord (d1.map fun p => (p.1, WJson.num p.2)) (d2.map fun p => (p.1, WJson.num p.2)) =
      diffDict ord d1 d2 := by
  unfold rawDiffDict diffDict
  rw [keys_mapVal, keys_mapVal]
  congr 1
  funext acc k
  rw [get_mapVal, get_mapVal]
  cases d2.get k with
  | error e => rfl
  | ok y =>
    cases d1.get k with
    | error e => rfl
    | ok x => rfl

/-- A result whose labels are texts, with iterations that are numbers. -/
def rawOf (t : Dict Text α) (b : Dict Text (Dict Text α)) (time : α) (it : Option α) : RawResult α where
  trust := numsObj t
  belief := .obj (b.map fun p => (p.1, numsObj p.2))
  time := .num time
  iterations := match it with
    | none => .null
    | some x => .num x

theorem rawDiffBelief_nums (ord : List Text → List Text) (b1 b2 : Dict Text (Dict Text α)) :
    rawDiffBelief ord (b1.map fun p => (p.1, numsObj p.2)) (b2.map fun p => (p.1, numsObj p.2)) =
      (common ord b1.keys b2.keys).foldlM (fun (acc : Dict Text (Dict Text α)) v => do
        let b1 ← b1.get v
        let b2 ← b2.get v
        let diffs ← diffDict ord b1 b2
        return if diffs.isEmpty then acc else acc.set v diffs) [] := by
  unfold rawDiffBelief
  rw [keys_mapVal, keys_mapVal]
  congr 1
  funext acc k
  rw [get_mapVal, get_mapVal]
  cases b1.get k with
  | error e => rfl
  | ok y =>
    cases b2.get k with
    | error e => rfl
    | ok x =>
      simp only [Except.map, numsObj, WJson.dict, bind, Except.bind]
      rw [rawDiffDict_nums]

theorem rawDiff_nums (ord : List Text → List Text) (hord : ∀ L, (ord L).Perm L)
    (t1 t2 : Dict Text α) (b1 b2 : Dict Text (Dict Text α)) (x1 x2 : α) (i1 i2 : Option α)
    (h1 : t1.keys.Nodup ∧ b1.keys.Nodup ∧ ∀ v b, b1.get? v = some b → b.keys.Nodup) :
    ∃ D, rawDiff ord (rawOf t1 b1 x1 i1) (rawOf t2 b2 x2 i2) = .ok D ∧
      (∀ s, D.trust.get? s = minus (t1.get? s) (t2.get? s)) ∧
      (∀ v x, beliefAt D.belief v x = minus (beliefAt b1 v x) (beliefAt b2 v x)) ∧
      (∀ v b, D.belief.get? v = some b → b ≠ []) ∧ D.time = x2 -. x1 ∧ D.iterations = minus i1 i2 := by
  obtain ⟨d, hd, ht, hb, hn, -, -, -, -⟩ := C47_diff ord ord ord hord hord hord
    (⟨t1, b1, x1, none⟩ : Result Text Text Text α) ⟨t2, b2, x2, none⟩ h1
  unfold resultDiff at hd
  simp only [bind, Except.bind, pure, Except.pure] at hd
  split at hd; · cases hd
  rename_i T hT
  split at hd; · cases hd
  rename_i B hB
  cases hd
  have hit : rawDiffIterations (rawOf t1 b1 x1 i1).iterations (rawOf t2 b2 x2 i2).iterations =
      .ok (minus i1 i2) := by
    cases i1 <;> cases i2 <;> rfl
  have hB' : rawDiffBelief ord (b1.map fun p => (p.1, numsObj p.2)) (b2.map fun p => (p.1, numsObj p.2)) =
      .ok B := by
    rw [rawDiffBelief_nums]; exact hB
  refine ⟨⟨T, B, x2 -. x1, minus i1 i2⟩, ?_, ht, hb, hn, rfl, rfl⟩
  unfold rawDiff
  rw [hit]
  simp only [rawOf, numsObj, WJson.dict, WJson.minus, WJson.operand, bind, Except.bind, pure, Except.pure]
  rw [rawDiffDict_nums, hT]
  simp only [numsObj] at hB'
  dsimp only
  rw [hB']

end

section
variable {X : Type} [DecidableEq X] {R : Rounding}

/-- Labels as texts. -/
def texts {κ ν : Type} (g : κ → Text) (d : Dict κ ν) : Dict Text ν := d.map fun p => (g p.1, p.2)

theorem jsonKeys_eq {κ ν : Type} {g : κ → Text} (hg : Function.Injective g) (f : ν → WJson (FP R))
    {d : Dict κ ν} (hd : d.keys.Nodup) :
    jsonKeys g f d = (texts g d).map fun p => (p.1, f p.2) := by
  unfold jsonKeys texts
  rw [ofPairs_nodup]
  · simp
  · rw [List.map_map]
    have : (Prod.fst ∘ fun p : κ × ν => (g p.1, f p.2)) = g ∘ Prod.fst := rfl
    rw [this, ← List.map_map]
    exact hd.map hg

theorem current_eq (env : Env X R) (hn : Function.Injective env.strNat) (hv : Function.Injective env.strVal)
    {r : Result Nat Nat X (FP R)} (hr : WellKeyed r) :
    currentResults env r = rawOf (texts env.strNat r.trust)
      (texts env.strNat (r.belief.map fun p => (p.1, texts env.strVal p.2))) r.time
      (r.iterations.map Arith.ofNat) := by
  unfold currentResults rawOf
  congr 1
  · rw [jsonKeys_eq hn _ hr.1]; rfl
  · rw [jsonKeys_eq hn _ hr.2.1]
    congr 1
    unfold texts
    rw [List.map_map, List.map_map, List.map_map]
    refine List.map_congr_left ?_
    rintro ⟨v, d⟩ hm
    simp only [Function.comp_apply, numsObj]
    rw [jsonKeys_eq hv _ (hr.2.2 v d (lookup_some_of_mem hr.2.1 hm))]
    rfl
  · cases r.iterations <;> rfl

theorem texts_get {κ ν : Type} [DecidableEq κ] {g : κ → Text} (hg : Function.Injective g) (d : Dict κ ν)
    (k : κ) : (texts g d).get? (g k) = d.get? k := lookup_mapKey hg d k

theorem texts_only {κ ν : Type} [DecidableEq κ] {g : κ → Text} {d : Dict κ ν} {k : Text} {x : ν}
    (h : (texts g d).get? k = some x) : ∃ k', k = g k' := by
  have := mem_of_lookup_some h
  simp only [texts, List.mem_map, Prod.mk.injEq] at this
  obtain ⟨p, -, e, -⟩ := this
  exact ⟨p.1, e.symm⟩

theorem minus_some {α : Type} [Arith α] {a b : Option α} {x : α} (h : minus a b = some x) :
    ∃ y z, a = some y ∧ b = some z := by
  cases a <;> cases b <;> first | exact ⟨_, _, rfl, rfl⟩ | cases h

/-- **C52.** With an earlier result, the differences shown are those of the scores the two
results have in common. -/
theorem C52_diff (env : Env X R) (hord : ∀ L, (env.ord L).Perm L)
    (hn : Function.Injective env.strNat) (hv : Function.Injective env.strVal)
    {r : Result Nat Nat X (FP R)} (hr : WellKeyed r) (t : Text) {j : WJson (FP R)}
    {trust : Dict Text (FP R)} {belief : Dict Text (Dict Text (FP R))} {time : FP R}
    {iterations : Option (FP R)} (hj : env.parseJson t = some j)
    (he : Earlier j trust belief time iterations) :
    ∃ D, webDiff env (some t) r = .ok (.ok (some D)) ∧
      Compared env r trust belief time iterations D := by
  obtain ⟨fs, rfl, f1, f2, f3, f4⟩ := he.fields
  have hobj : getResultsObject env.parseJson t = .ok (rawOf trust belief time iterations) := by
    unfold getResultsObject resultsOfObj
    rw [hj]
    simp only [WJson.item, Dict.get, f1, f2, f3, f4, bind, Except.bind, pure, Except.pure]
    cases iterations <;> rfl
  obtain ⟨D, hD, h1, h2, h3, h4, h5⟩ := rawDiff_nums env.ord hord trust
    (texts env.strNat r.trust) belief (texts env.strNat (r.belief.map fun p => (p.1, texts env.strVal p.2)))
    time r.time iterations (r.iterations.map Arith.ofNat) he.unique
  refine ⟨D, ?_, ?_⟩
  · unfold webDiff
    dsimp only
    rw [hobj, current_eq env hn hv hr]
    simp only [hD, bind, Except.bind, pure, Except.pure]
  · have hbel : ∀ v x, beliefAt (texts env.strNat (r.belief.map fun p => (p.1, texts env.strVal p.2)))
        (env.strNat v) (env.strVal x) = beliefAt r.belief v x := by
      intro v x
      unfold beliefAt
      rw [texts_get hn, lookup_mapVal]
      cases r.belief.get? v with
      | none => rfl
      | some d => exact texts_get hv d x
    refine ⟨?_, ?_, ?_, ?_, h3, h4, h5⟩
    · intro s; rw [h1, texts_get hn]
    · intro k x h
      rw [h1] at h
      obtain ⟨_, _, -, h⟩ := minus_some h
      exact texts_only h
    · intro v x; rw [h2, hbel]
    · intro k k' y h
      rw [h2] at h
      obtain ⟨_, z, -, h⟩ := minus_some h
      unfold beliefAt at h
      cases hk : (texts env.strNat (r.belief.map fun p => (p.1, texts env.strVal p.2))).get? k with
      | none => rw [hk] at h; cases h
      | some b =>
        obtain ⟨v, rfl⟩ := texts_only hk
        rw [texts_get hn, lookup_mapVal] at hk
        rw [texts_get hn, lookup_mapVal] at h
        cases hb : r.belief.get? v with
        | none => rw [hb] at hk; cases hk
        | some d =>
          rw [hb] at h
          obtain ⟨x, hx⟩ := texts_only (g := env.strVal) (d := d) h
          exact ⟨v, x, rfl, hx⟩

theorem webDiff_bad (env : Env X R) {t : Text} (h : BadPrevious env.parseJson t)
    (r : Result Nat Nat X (FP R)) : webDiff env (some t) r = .ok (.error 400) := by
  have : getResultsObject env.parseJson t = .error .valueError := by
    rcases h with h | ⟨fs, hj, n, hn, hf⟩
    · unfold getResultsObject; rw [h]
    · unfold getResultsObject resultsOfObj
      rw [hj]
      simp only [WJson.item, Dict.get, bind, Except.bind, pure, Except.pure]
      simp only [List.mem_cons, List.not_mem_nil, or_false] at hn
      cases f1 : Dict.get? fs "trust".toList with
      | none => rfl
      | some a =>
        cases f2 : Dict.get? fs "belief".toList with
        | none => rfl
        | some b =>
          cases f3 : Dict.get? fs "time".toList with
          | none => rfl
          | some c =>
            cases f4 : Dict.get? fs "iterations".toList with
            | none => rfl
            | some d =>
              rcases hn with rfl | rfl | rfl | rfl
              · rw [f1] at hf; cases hf
              · rw [f2] at hf; cases hf
              · rw [f3] at hf; cases hf
              · rw [f4] at hf; cases hf
  unfold webDiff
  dsimp only
  rw [this]


/-! ### Answers -/

theorem numOr_unique {α : Type} [Arith α] {ps : Dict Text (PVal α)} {n : String} {d x y : α}
    (h1 : NumOr ps n d x) (h2 : NumOr ps n d y) : x = y := by
  rcases h1 with h1 | ⟨h1, rfl⟩ <;> rcases h2 with h2 | ⟨h2, rfl⟩ <;> simp_all

theorem iterOr_unique {α : Type} [Arith α] {ps : Dict Text (PVal α)} {d x y : IterCfg α}
    (h1 : IterOr ps d x) (h2 : IterOr ps d y) : x = y := by
  rcases h1 with h1 | ⟨h1, rfl⟩ <;> rcases h2 with h2 | ⟨h2, rfl⟩ <;> simp_all

theorem priorOr_unique {α : Type} [Arith α] {ps : Dict Text (PVal α)} {d : Prior} {x y : Option Prior}
    (h1 : PriorOr ps d x) (h2 : PriorOr ps d y) : x = y := by
  rcases h1 with ⟨q, h1, rfl⟩ | ⟨h1, rfl⟩ <;> rcases h2 with ⟨q', h2, rfl⟩ | ⟨h2, rfl⟩ <;> simp_all

/-- Label and parameters determine the algorithm object. -/
theorem constructed_unique {α : Type} [Arith α] {ps : Dict Text (PVal α)} {c : AlgLabel} {a b : AnyAlg α}
    (h1 : Constructed ps c a) (h2 : Constructed ps c b) : a = b := by
  cases h1 <;> cases h2
  · rfl
  all_goals
    congr 2
    all_goals first
      | exact iterOr_unique ‹_› ‹_›
      | exact priorOr_unique ‹_› ‹_›
      | (congr 1 <;> exact numOr_unique ‹_› ‹_›)

theorem labelName_injective {c e : AlgLabel} (h : (labelName c).toList = (labelName e).toList) : c = e := by
  revert h
  cases c <;> cases e <;> decide

/-- What the environment has to provide. -/
structure WebEnvOk (env : Env X R) : Prop where
  newline : env.digit '\n' = none
  ord : ∀ L, (env.ord L).Perm L
  lt : ∃ (K : Type) (_ : LinearOrder K) (key : X → K), ∀ x y, env.ltVal x y = decide (key x < key y)
  strNat : Function.Injective env.strNat
  strVal : Function.Injective env.strVal
  fuel : 1000000 < env.fuel

theorem joinComma_eq (L : List Text) : joinComma L = [',', ' '].intercalate L := by
  induction L with
  | nil => rfl
  | cons a L ih =>
    cases L with
    | nil => simp [joinComma, List.intercalate]
    | cons b L =>
      rw [joinComma, ih]
      simp [List.intercalate]

/-- The messages of one algorithm. -/
theorem messages_ok {env : Env X R} (henv : WebEnvOk env) {ps : Dict Text (PVal (FP R))}
    (hnd : ps.keys.Nodup) (c : AlgLabel) :
    Messages ps c (if (getAlgorithmParams env.ord c ps).2.isEmpty then []
      else [ignoredMessage c (getAlgorithmParams env.ord c ps).2]) := by
  set names := (getAlgorithmParams env.ord c ps).2 with hnames
  have hn : names.Nodup := hnd.filter _
  obtain ⟨h1, h2, -⟩ := pySorted_spec (k := (id : Text → Text))
    (lt := fun a b : Text => decide (a < b)) (fun a b => decide_eq_decide.2 Iff.rfl) names
  refine ⟨pySorted (fun a b => decide (a < b)) names, ?_, ?_, ?_⟩
  · have hn' : (pySorted (fun a b : Text => decide (a < b)) names).Nodup := h2.nodup_iff.2 hn
    exact (h1.and hn').imp fun h => lt_of_le_of_ne h.1 h.2
  · intro k
    rw [h2.mem_iff]
    exact (C50_split env.ord henv.ord c ps k).2
  · have : (pySorted (fun a b : Text => decide (a < b)) names = []) ↔ names = [] := by
      constructor
      · intro e; rw [e] at h2; exact h2.symm.eq_nil
      · intro e; rw [e] at h2 ⊢; exact h2.eq_nil
    by_cases he : names = []
    · rw [if_pos (this.2 he), he]; rfl
    · rw [if_neg (fun h => he (this.1 h)), if_neg (by simpa using he)]
      unfold ignoredMessage
      rw [joinComma_eq, show c.className = (algorithmClass c).toList by cases c <;> rfl]

theorem prepare_ok {env : Env X R} (henv : WebEnvOk env) {text : Option Text}
    {ps : Dict Text (PVal (FP R))} (hps : ParamsMean env.digit env.parseFloat text ps) (label : Text) :
    (∀ c, label = (labelName c).toList → ∃ a, Constructed ps c a ∧
      prepare env ps label = .ok (c, a, (getAlgorithmParams env.ord c ps).2)) ∧
    ((∀ c, label ≠ (labelName c).toList) → prepare env ps label = .error .valueError) := by
  obtain ⟨h1, h2⟩ := C50_label label
  constructor
  · intro c hc
    obtain ⟨a, ha, hca⟩ := C50_construct env.ord henv.ord c ps fun k v hv => by
      obtain ⟨value, hm⟩ := params_mean env.digit env.parseFloat hps hv
      exact means_kind _ _ hm
    refine ⟨a, hca, ?_⟩
    unfold prepare
    simp only [(h1 c).2 hc, bind, Except.bind, ha, pure, Except.pure]
  · intro hn
    cases hc : algorithmCls label with
    | ok c => exact absurd ((h1 c).1 hc) (hn c)
    | error e =>
      unfold prepare
      rw [hc, (h2 e hc).1]
      rfl

theorem params_nodup {env : Env X R} {text : Option Text}
    {ps : Dict Text (PVal (FP R))} (hps : ParamsMean env.digit env.parseFloat text ps) : ps.keys.Nodup := by
  cases text with
  | none => rw [show ps = [] from hps]; simp [Dict.keys]
  | some t => obtain ⟨_, _, _, _, _, h⟩ := hps; exact h

/-- The iterator given by the client, or a default. -/
theorem iter_client {env : Env X R} {text : Option Text} {ps : Dict Text (PVal (FP R))}
    (hps : ParamsMean env.digit env.parseFloat text ps) {dflt it : IterCfg (FP R)}
    (h : IterOr ps dflt it) : (∃ t, Describes env.digit env.parseFloat 200 t it) ∨ it = dflt := by
  rcases h with h | ⟨-, rfl⟩
  · obtain ⟨value, hm⟩ := params_mean env.digit env.parseFloat hps h
    cases hm with
    | iterator _ _ h => exact .inl ⟨_, h⟩
  · exact .inr rfl

/-- Iterators of algorithm objects the client constructs. -/
theorem constructed_iter {env : Env X R} {text : Option Text} {ps : Dict Text (PVal (FP R))}
    (hps : ParamsMean env.digit env.parseFloat text ps) {c : AlgLabel} {cfg : AlgCfg (FP R)}
    (h : Constructed ps c (.iter cfg)) :
    (∀ th lim, cfg.iterator ≠ .conv none th lim) ∧
    (∀ n, cfg.iterator = .fixed n → n ≤ 1000000) ∧ (∀ ms th n, cfg.iterator = .conv ms th n → n ≤ 1000000) ∧
    (∀ n, cfg.iterator = .ord n → c = .usums) := by
  have key : ∀ dflt : IterCfg (FP R), IterOr ps dflt cfg.iterator →
      (∀ th lim, dflt ≠ .conv none th lim) ∧
      (∀ n, dflt = .fixed n → n ≤ 1000000) ∧ (∀ ms th n, dflt = .conv ms th n → n ≤ 1000000) ∧
      (∀ n, dflt = .ord n → c = .usums) →
      (∀ th lim, cfg.iterator ≠ .conv none th lim) ∧
      (∀ n, cfg.iterator = .fixed n → n ≤ 1000000) ∧
      (∀ ms th n, cfg.iterator = .conv ms th n → n ≤ 1000000) ∧
      (∀ n, cfg.iterator = .ord n → c = .usums) := by
    intro dflt hi hd
    rcases iter_client hps hi with ⟨t, ht⟩ | he
    · generalize cfg.iterator = it at ht
      cases ht with
      | fixed ds nl n hds hnl hn => exact ⟨nofun, fun m e => by cases e; omega, nofun, nofun⟩
      | conv m th x hne hth hx =>
        exact ⟨nofun, nofun, fun _ _ _ e => by cases e; norm_num, nofun⟩
      | convLimit m th ds nl x n hne hth hx hds hnl hn =>
        exact ⟨nofun, nofun, fun _ _ _ e => by cases e; omega, nofun⟩
    · rw [he]; exact hd
  cases h with
  | sums it p h1 h2 => exact key _ h1 ⟨nofun, fun _ e => by cases e; norm_num, nofun, nofun⟩
  | averageLog it p h1 h2 => exact key _ h1 ⟨nofun, fun _ e => by cases e; norm_num, nofun, nofun⟩
  | usums it p h1 h2 => exact key _ h1 ⟨nofun, nofun, nofun, fun _ _ => rfl⟩
  | investment g it p h0 h1 h2 => exact key _ h1 ⟨nofun, fun _ e => by cases e; norm_num, nofun, nofun⟩
  | pooledInvestment g it p h0 h1 h2 =>
    exact key _ h1 ⟨nofun, fun _ e => by cases e; norm_num, nofun, nofun⟩
  | crh e it p h0 h1 h2 => exact key _ h1 ⟨nofun, fun _ e => by cases e; norm_num, nofun, nofun⟩
  | truthfinder a b t it p h3 h4 h5 h1 h2 =>
    exact key _ h1 ⟨nofun, nofun, fun _ _ _ e => by cases e; norm_num, nofun⟩

end

section
variable {X : Type} [DecidableEq X]

/-- The graph of the page. -/
theorem graph_ok (env : Env X .exact) {l : List (Nat × Nat × X)} {d : Dataset Nat Nat X Ex}
    (hd : Dataset.mk' l false none = .ok d) {r : Result Nat Nat X Ex} {p : Scores Nat Nat X}
    (hr : Reports l r p) (hp : NonNeg l p) (st : Renderer.State Nat Nat X Ex) :
    ∃ frame, ((webRenderer env (gradientScheme r)).render st d none).2 = .ok frame ∧
      readDoc (jsonDoc frame) = some (webPicture env l p) := by
  have h := C54_render ex_one_ne_zero hd (webRenderer env (gradientScheme r))
    (fun a b => decide_eq_decide.2 Iff.rfl) (scheme_sound hr hp) st none
  refine ⟨(picture (webRenderer env (gradientScheme r)) l (heightOf (webRenderer env (gradientScheme r)) l)
    (scoreColour p) none, (webRenderer env (gradientScheme r)).width,
    heightOf (webRenderer env (gradientScheme r)) l), by convert h, ?_⟩
  rw [C58_round_trip]
  rfl

/-- The animation of the page. -/
theorem animation_ok (env : Env X .exact) {l : List (Nat × Nat × X)} (hl : l ≠ [])
    {d : Dataset Nat Nat X Ex} (hd : Dataset.mk' l false none = .ok d) {c : AlgCfg Ex} (hc : Sound l c)
    (i : Nat) {rs : List (Result Nat Nat X Ex)}
    (hrun : c.runIter d env.fuel (env.clock (2 * i + 1)) = .ok rs) :
    ∃ ps doc, List.Forall₂ (Reports l) rs ps ∧ (∀ p ∈ ps, NonNeg l p) ∧
      webAnimation env i (.iter c) d = .ok (some doc) ∧
      readAnimation doc = some (5, ps.map (webPicture env l)) := by
  obtain ⟨ps, h1, h2, h3, -⟩ := C57_sound hl (f := none) hd hc (webRenderer env defaultScheme)
    (fun a b => decide_eq_decide.2 Iff.rfl) {} env.fuel (env.clock (2 * i + 1)) {} hrun
  have ha := (C57_constructor .json (webRenderer env defaultScheme)
    (some (webRenderer env defaultScheme, .json)) 0.2).2.2 _ _ (by norm_num) rfl
  rw [if_pos (by decide)] at ha
  obtain ⟨doc, h4, h5⟩ := C58_animation ⟨.json, webRenderer env defaultScheme, .json, 1 / 0.2⟩ {} c d
    env.fuel (env.clock (2 * i + 1)) false {} h3
  have h4' : jsonAnimation ⟨.json, webRenderer env defaultScheme, .json, 1 / 0.2⟩ {} c d
    env.fuel (env.clock (2 * i + 1)) false = .ok doc := by convert h4
  refine ⟨ps, doc, h1, h2, ?_, ?_⟩
  · unfold webAnimation
    simp only [ha, bind, Except.bind, h4', pure, Except.pure]
  · rw [h5, List.map_map]
    refine congrArg some (Prod.ext ?_ ?_)
    · norm_num
    · refine List.map_congr_left ?_
      intro p _
      rfl

/-- One algorithm of a request. -/
theorem one_ok {env : Env X .exact} (henv : WebEnvOk env) {req : Request} {ps : Dict Text (PVal Ex)}
    (hps : ParamsMean env.digit env.parseFloat req.parameters ps)
    {l : List (Nat × Nat × X)} {d : Dataset Nat Nat X Ex} (hd : Dataset.mk' l false none = .ok d)
    (hprev : PreviousOk env.parseJson req.previousResults) (i : Nat) (label : Text)
    (hs : l ≠ [] → ∀ c cfg, label = (labelName c).toList → Constructed ps c (.iter cfg) → Sound l cfg)
    (hu : label = "usums".toList → ∀ a, Constructed ps .usums a →
      a.run d env.fuel (env.clock (2 * i)) ≠ .error .diverge) :
    (∃ s, oneAlgorithm env req ps d i label = .ok (.error s) ∧
      Fails env req.previousResults ps d i label s) ∨
    (∃ out ms c a r, oneAlgorithm env req ps d i label = .ok (.ok (out, ms)) ∧
      label = (labelName c).toList ∧ Constructed ps c a ∧ Messages ps c ms ∧
      Presented env req.previousResults l d i a r out ∧
      ∀ s, ¬ Fails env req.previousResults ps d i label s) := by
  by_cases hc : ∃ c, label = (labelName c).toList
  swap
  · rw [not_exists] at hc
    refine .inl ⟨400, ?_, .unknown hc⟩
    unfold oneAlgorithm
    rw [(prepare_ok henv hps label).2 hc]
  obtain ⟨c, hc⟩ := hc
  obtain ⟨a, ha, hprep⟩ := (prepare_ok henv hps label).1 c hc
  have hd' := hd
  obtain rfl : datasetOf l none = d := (mk'_ex hd).symm
  -- the run
  cases hrun : a.run (datasetOf l none) env.fuel (env.clock (2 * i)) with
  | error e =>
    have he : e = .emptyDataset ∨ e = .convergence := by
      by_cases hl : l = []
      · subst hl
        left
        cases a with
        | voting => cases hrun; rfl
        | iter cfg =>
          simp only [AnyAlg.run, run_eq] at hrun
          rw [exec_empty _ _ _ _ ((numClaims_zero _ _).2 rfl)] at hrun
          cases hrun; rfl
      · cases a with
        | voting =>
          obtain ⟨r, hr, -⟩ := C29_voting l false none _ hd hl (env.clock (2 * i))
          simp only [AnyAlg.run, hr] at hrun
          cases hrun
        | iter cfg =>
          obtain ⟨m1, m2, m3, m4⟩ := constructed_iter hps ha
          rcases C63_exceptions hl (f := none) hd (hs hl c cfg hc ha) m1 (.inl hrun) with ⟨h, -⟩ | ⟨h, k1, k2⟩
          · exact .inr h
          · exfalso
            have hf := henv.fuel
            cases hit : cfg.iterator with
            | fixed n => have := k1 n hit; have := m2 n hit; omega
            | conv ms th n => have := k2 ms th n hit; have := m3 ms th n hit; omega
            | ord n =>
              have := m4 n hit
              subst this
              exact hu hc _ ha (by rw [hrun, h])
    rcases he with rfl | rfl
    · refine .inl ⟨400, ?_, .empty c a hc ha hrun⟩
      unfold oneAlgorithm
      rw [hprep]
      simp only [hrun]
    · refine .inl ⟨500, ?_, .diverged c a hc ha hrun⟩
      unfold oneAlgorithm
      rw [hprep]
      simp only [hrun]
  | ok r =>
    have hl : l ≠ [] := by
      rintro rfl
      cases a with
      | voting => cases hrun
      | iter cfg =>
        simp only [AnyAlg.run, run_eq] at hrun
        rw [exec_empty _ _ _ _ ((numClaims_zero _ _).2 rfl)] at hrun
        cases hrun
    -- scores
    have hp : ∃ p, Reports l r p ∧ NonNeg l p := by
      cases a with
      | voting =>
        obtain ⟨r', hr', hrep, -⟩ := C29_voting l false none _ hd hl (env.clock (2 * i))
        have hrun' : votingRun (datasetOf l none) (env.clock (2 * i)) = .ok r := hrun
        rw [hr'] at hrun'
        cases hrun'
        refine ⟨_, hrep, fun _ _ => zero_le_one, fun c' hc' => ?_⟩
        exact scaled_nonneg hc' (nSources_pos l ((mem_allClaims l).1 hc')).le
      | iter cfg => exact (C63_scores hl (f := none) hd (hs hl c cfg hc ha)).1 r hrun
    obtain ⟨p, hrep, hpos⟩ := hp
    obtain ⟨K, _, key, hlt⟩ := henv.lt
    obtain ⟨fields, hf, hkeys, hvals⟩ := C51_output key env.ltVal hlt r (C51_runs a _ _ _ r hrun) none none
    obtain ⟨frame, hframe, hdoc⟩ := graph_ok env hd hrep hpos {}
    -- animation
    have hanim : ∃ anim, webAnimation env i a (datasetOf l none) = .ok anim ∧ match a with
        | .voting => anim = none
        | .iter c => ∃ rs ps doc, c.runIter (datasetOf l none) env.fuel (env.clock (2 * i + 1)) = .ok rs ∧
            List.Forall₂ (Reports l) rs ps ∧ (∀ p ∈ ps, NonNeg l p) ∧ anim = some doc ∧
            readAnimation doc = some (5, ps.map (webPicture env l)) := by
      cases a with
      | voting => exact ⟨none, rfl, rfl⟩
      | iter cfg =>
        have hok : ∃ rs, cfg.runIter (datasetOf l none) env.fuel (env.clock (2 * i + 1)) = .ok rs := by
          have hrun' : cfg.run (datasetOf l none) env.fuel (env.clock (2 * i)) = .ok r := hrun
          rw [run_eq] at hrun'
          rw [runIter_eq]
          cases hx : cfg.exec (matsOf l none) env.fuel {} with
          | error e => rw [hx] at hrun'; cases hrun'
          | ok x => exact ⟨_, rfl⟩
        obtain ⟨rs, hrs⟩ := hok
        obtain ⟨qs, doc, h1, h2, h3, h4⟩ := animation_ok env hl hd (hs hl c cfg hc ha) i hrs
        exact ⟨_, h3, rs, qs, doc, hrs, h1, h2, rfl, h4⟩
    obtain ⟨anim, hanim, hanim'⟩ := hanim
    have hmsg := messages_ok henv (params_nodup hps) c
    have hone : ∀ x, webDiff env req.previousResults r = .ok x →
        oneAlgorithm env req ps (datasetOf l none) i label = match x with
          | .error s => .ok (.error s)
          | .ok D => .ok (.ok (⟨fields, jsonDoc frame, anim, D⟩,
              if (getAlgorithmParams env.ord c ps).2.isEmpty then []
              else [ignoredMessage c (getAlgorithmParams env.ord c ps).2])) := by
      intro x hx
      unfold oneAlgorithm present
      rw [hprep]
      simp only [hrun, hf, hframe, hanim, hx, bind, Except.bind, pure, Except.pure]
      cases x <;> rfl
    have hfin : ∀ D, webDiff env req.previousResults r = .ok (.ok D) →
        ((req.previousResults = none → D = none) ∧
          ∀ t j trust belief time iterations, req.previousResults = some t → env.parseJson t = some j →
          Earlier j trust belief time iterations →
          ∃ D', D = some D' ∧ Compared env r trust belief time iterations D') →
        (∃ out ms c a r, oneAlgorithm env req ps (datasetOf l none) i label = .ok (.ok (out, ms)) ∧
          label = (labelName c).toList ∧ Constructed ps c a ∧ Messages ps c ms ∧
          Presented env req.previousResults l (datasetOf l none) i a r out ∧
          ∀ s, ¬ Fails env req.previousResults ps (datasetOf l none) i label s) := by
      intro D hD hD'
      refine ⟨_, _, c, a, r, hone _ hD, hc, ha, hmsg, ⟨hrun, ?_, hvals, ⟨p, hrep, hpos, hdoc⟩, ?_, hD'⟩, ?_⟩
      · intro f
        rw [hkeys]
        simp [Wanted]
      · cases a <;> exact hanim'
      · intro s hfail
        cases hfail with
        | unknown h => exact h c hc
        | empty c' a' h1 h2 h3 =>
          obtain rfl := labelName_injective (hc.symm.trans h1)
          obtain rfl := constructed_unique ha h2
          rw [hrun] at h3; cases h3
        | diverged c' a' h1 h2 h3 =>
          obtain rfl := labelName_injective (hc.symm.trans h1)
          obtain rfl := constructed_unique ha h2
          rw [hrun] at h3; cases h3
        | previous c' a' r' t h1 h2 h3 h4 h5 =>
          rw [h4, webDiff_bad env h5] at hD
          cases hD
    have hkeyed := C47_runs a _ _ _ r hrun
    cases hpr : req.previousResults with
    | none =>
      rw [hpr] at hfin
      exact .inr (hfin none rfl ⟨fun _ => rfl, nofun⟩)
    | some t =>
      rw [hpr] at hprev hfin hone
      cases hprev with
      | bad _ h =>
        exact .inl ⟨400, hone _ (webDiff_bad env h r), .previous c a r t hc ha hrun rfl h⟩
      | good _ j trust belief time its h he =>
        obtain ⟨D, hD, -⟩ := C52_diff env henv.ord henv.strNat henv.strVal hkeyed t h he
        refine .inr (hfin _ hD ⟨nofun, ?_⟩)
        intro t' j' trust' belief' time' its' e1 e2 e3
        cases e1
        obtain ⟨D', hD', hcmp⟩ := C52_diff env henv.ord henv.strNat henv.strVal hkeyed t e2 e3
        rw [hD] at hD'
        cases hD'
        exact ⟨D, rfl, hcmp⟩

/-- The loop over the algorithms, after those in `pre`. -/
theorem loop_answer {env : Env X .exact} {req : Request} {ps : Dict Text (PVal Ex)}
    {l : List (Nat × Nat × X)} {d : Dataset Nat Nat X Ex} {labels : List Text}
    (hone : ∀ i label, labels[i]? = some label →
      (∃ s, oneAlgorithm env req ps d i label = .ok (.error s) ∧
        Fails env req.previousResults ps d i label s) ∨
      (∃ out ms c a r, oneAlgorithm env req ps d i label = .ok (.ok (out, ms)) ∧
        label = (labelName c).toList ∧ Constructed ps c a ∧ Messages ps c ms ∧
        Presented env req.previousResults l d i a r out ∧
        ∀ s, ¬ Fails env req.previousResults ps d i label s))
    (post pre : List Text) (hl : labels = pre ++ post) (data : Dict Text (WebOut X Ex)) (mss : List (List Text))
    (h1 : ∀ j < pre.length, ∀ label s, labels[j]? = some label → ¬ Fails env req.previousResults ps d j label s)
    (h2 : data.keys.Nodup) (h3 : ∀ label, label ∈ data.keys ↔ label ∈ pre)
    (h4 : ∀ label out, data.get? label = some out → ∃ i c a r, pre[i]? = some label ∧
        (∀ j, i < j → pre[j]? ≠ some label) ∧ label = (labelName c).toList ∧ Constructed ps c a ∧
        Presented env req.previousResults l d i a r out)
    (h5 : List.Forall₂ (fun label ms => ∃ c, label = (labelName c).toList ∧ Messages ps c ms) pre mss) :
    ∃ resp, webLoop env req ps d pre.length post data mss.flatten = .ok resp ∧
      Answer env req.previousResults ps l d labels resp := by
  induction post generalizing pre data mss with
  | nil =>
    have e : labels = pre := by simpa using hl
    subst e
    refine ⟨_, rfl, .ok data mss ?_ h2 h3 h4 h5⟩
    intro j label s hj
    exact h1 j (List.getElem?_eq_some_iff.1 hj).1 label s hj
  | cons label post ih =>
    have hi : labels[pre.length]? = some label := by rw [hl]; simp
    rcases hone _ _ hi with ⟨s, ho, hf⟩ | ⟨out, ms, c, a, r, ho, hc, ha, hm, hp, hnf⟩
    · exact ⟨_, by simp only [webLoop, ho], .error _ s label hi hf h1⟩
    · have := ih (pre ++ [label]) (by simp [hl]) (data.set label out) (mss ++ [ms]) ?_ ?_ ?_ ?_ ?_
      · obtain ⟨resp, e, h⟩ := this
        refine ⟨resp, ?_, h⟩
        simp only [webLoop, ho]
        simpa using e
      · intro j hj label' s' hj'
        rw [List.length_append, List.length_singleton] at hj
        rcases Nat.lt_succ_iff_lt_or_eq.1 hj with hj | rfl
        · exact h1 j hj label' s' hj'
        · rw [hi] at hj'
          cases hj'
          exact hnf s'
      · exact nodup_set h2 _ _
      · intro label'
        rw [keys_set]
        have := h3 label'
        by_cases hk : label ∈ data.keys
        · rw [if_pos hk, this]
          constructor
          · intro h; simp [h]
          · intro h
            rcases List.mem_append.1 h with h | h
            · exact h
            · rw [List.mem_singleton.1 h]; exact (h3 label).1 hk
        · rw [if_neg hk]; simp [this]
      · intro label' out' hg
        rw [get?_set] at hg
        split at hg
        · rename_i e
          subst e
          cases hg
          refine ⟨pre.length, c, a, r, by simp, ?_, hc, ha, hp⟩
          intro j hj
          rw [List.getElem?_eq_none (by simp; omega)]
          nofun
        · rename_i hne
          obtain ⟨i, c', a', r', g1, g2, g3, g4, g5⟩ := h4 label' out' hg
          have hil : i < pre.length := (List.getElem?_eq_some_iff.1 g1).1
          refine ⟨i, c', a', r', by rw [List.getElem?_append_left hil]; exact g1, ?_, g3, g4, g5⟩
          intro j hj
          by_cases hjl : j < pre.length
          · rw [List.getElem?_append_left hjl]; exact g2 j hj
          · rw [List.getElem?_append_right (by omega)]
            intro e
            have := List.mem_of_getElem? e
            exact hne (List.mem_singleton.1 this)
      · exact List.rel_append h5 (.cons ⟨c, hc, hm⟩ .nil)

theorem webInputs_ok {R : Rounding} {env : Env X R} {req : Request} {csv : Text} {ps : Dict Text (PVal (FP R))}
    (hps : getParamDict env.digit env.parseFloat req.parameters = .ok ps) {g : Grid X}
    (hg : csvToMasked env.parseValue (csv.filter fun c => c ≠ '_') = .ok g) :
    ∃ md : MatrixDataset X (FP R), Dataset.mk' (getTriples g) false none = .ok md.data ∧
      webInputs env req csv = .ok (ps, md) := by
  obtain ⟨md, h1, h2⟩ := (C12_from_csv (α := FP R) (fp_one_ne_zero R) env.parseValue _).1 g hg
  refine ⟨md, ?_, ?_⟩
  · unfold MatrixDataset.mk' at h2
    simp only [bind, Except.bind] at h2
    cases hx : (Dataset.mk' (getTriples g) false none : Except _ (Dataset Nat Nat X (FP R))) with
    | error e => rw [hx] at h2; cases h2
    | ok d => rw [hx] at h2; cases h2; rfl
  · unfold webInputs
    simp only [hps, h1, bind, Except.bind, pure, Except.pure]

theorem webRun_eq {R : Rounding} {env : Env X R} {req : Request} (halg : req.algorithm ≠ []) {csv : Text}
    (hcsv : req.csv = some csv) (hne : csv ≠ []) {ps : Dict Text (PVal (FP R))}
    {md : MatrixDataset X (FP R)} (h : webInputs env req csv = .ok (ps, md)) :
    webRun env req = webLoop env req ps md.data 0 req.algorithm [] [] := by
  obtain ⟨alg, csv', par, prev⟩ := req
  cases alg with
  | nil => exact absurd rfl halg
  | cons a as =>
    cases hcsv
    cases csv with
    | nil => exact absurd rfl hne
    | cons c cs => simp only [webRun, h]

/-- **C52.** A request with proper parameters and matrix, algorithms configured soundly for
the data (see `Sound`; on real numbers), and a "previous_results" that is absent, not
JSON, incomplete or a proper result gets the answer described by `Answer`: the status
of the first algorithm that fails, or the outputs of all algorithms.  No exception
escapes. -/
theorem C52_answer_partial {env : Env X .exact} (henv : WebEnvOk env) (req : Request)
    (halg : req.algorithm ≠ []) (csv : Text) (hcsv : req.csv = some csv) (hne : csv ≠ [])
    (ps : Dict Text (PVal Ex)) (hps : getParamDict env.digit env.parseFloat req.parameters = .ok ps)
    (g : Grid X) (hg : csvToMasked env.parseValue (csv.filter fun c => c ≠ '_') = .ok g)
    (hprev : PreviousOk env.parseJson req.previousResults)
    (hs : getTriples g ≠ [] → ∀ c cfg, (labelName c).toList ∈ req.algorithm →
      Constructed ps c (.iter cfg) → Sound (getTriples g) cfg) :
    ∃ d, Dataset.mk' (getTriples g) false none = .ok d ∧
      ((∀ i, req.algorithm[i]? = some "usums".toList → ∀ a, Constructed ps .usums a →
        a.run d env.fuel (env.clock (2 * i)) ≠ .error .diverge) →
      ∃ resp, webRun env req = .ok resp ∧
        Answer env req.previousResults ps (getTriples g) d req.algorithm resp) := by
  obtain ⟨md, hmd, hin⟩ := webInputs_ok hps hg
  refine ⟨md.data, hmd, ?_⟩
  intro hu
  have hps' := (C52_parameters env.digit env.parseFloat henv.newline req.parameters).1 ps hps
  rw [webRun_eq halg hcsv hne hin]
  refine loop_answer (labels := req.algorithm) ?_ req.algorithm [] rfl [] [] ?_ ?_ ?_ ?_ .nil
  · intro i label hi
    refine one_ok henv hps' hmd hprev i label ?_ ?_
    · intro hl c cfg hc hcon
      exact hs hl c cfg (hc ▸ List.mem_of_getElem? hi) hcon
    · intro hlab
      subst hlab
      exact hu i hi
  · intro j hj; simp at hj
  · simp [Dict.keys]
  · intro label; simp [Dict.keys]
  · intro label out h; simp [Dict.get?] at h

/-- **C52.** The only statuses of errors are 400 and 500; the latter only if an algorithm did
not converge — for every request and arithmetic. -/
theorem C52_status {R : Rounding} (env : Env X R) (req : Request) (s : Nat)
    (h : webRun env req = .ok (.error s)) :
    s = 400 ∨ s = 500 ∧ ∃ (i : Nat) (a : AnyAlg (FP R)) (d : Dataset Nat Nat X (FP R)),
      a.run d env.fuel (env.clock (2 * i)) = .error .convergence := by
  have hloop : ∀ (ps : Dict Text (PVal (FP R))) (d : Dataset Nat Nat X (FP R)) (labels : List Text)
      (i : Nat) (data : Dict Text (WebOut X (FP R))) (ms : List Text),
      webLoop env req ps d i labels data ms = .ok (.error s) →
      s = 400 ∨ s = 500 ∧ ∃ (i : Nat) (a : AnyAlg (FP R)) (d : Dataset Nat Nat X (FP R)),
        a.run d env.fuel (env.clock (2 * i)) = .error .convergence := by
    intro ps d labels
    induction labels with
    | nil => intro i data ms h; cases h
    | cons label rest ih =>
      intro i data ms h
      rw [webLoop] at h
      split at h
      · cases h
      · rename_i s' ho
        cases h
        unfold oneAlgorithm at ho
        split at ho
        · cases ho; exact .inl rfl
        · cases ho
        · rename_i c a ign hpr
          dsimp only at ho
          split at ho
          · rename_i hr
            cases ho
            exact .inr ⟨rfl, i, a, d, hr⟩
          · cases ho; exact .inl rfl
          · cases ho
          · rename_i r hr
            split at ho
            · cases ho
            · rename_i s'' hpre
              cases ho
              left
              unfold present at hpre
              simp only [bind, Except.bind, pure, Except.pure] at hpre
              split at hpre; · cases hpre
              split at hpre; · cases hpre
              split at hpre; · cases hpre
              split at hpre; · cases hpre
              rename_i x hx
              cases x with
              | ok D => cases hpre
              | error e =>
                cases hpre
                unfold webDiff at hx
                split at hx
                · cases hx
                · split at hx
                  · cases hx; rfl
                  · cases hx
                  · simp only [bind, Except.bind, pure, Except.pure] at hx
                    split at hx <;> cases hx
            · cases ho
      · exact ih _ _ _ h
  obtain ⟨alg, csv, par, prev⟩ := req
  cases alg with
  | nil => cases csv <;> (cases h; exact .inl rfl)
  | cons a as =>
    cases csv with
    | none => cases h; exact .inl rfl
    | some t =>
      cases t with
      | nil => cases h; exact .inl rfl
      | cons c cs =>
        simp only [webRun] at h
        split at h
        · cases h; exact .inl rfl
        · cases h
        · exact hloop _ _ _ _ _ _ h

/-! ### Requests that are not answered -/

theorem first_error {R : Rounding} {env : Env X R} {req : Request} {label : Text} {rest : List Text}
    (halg : req.algorithm = label :: rest) {csv : Text}
    (hcsv : req.csv = some csv) (hne : csv ≠ []) {ps : Dict Text (PVal (FP R))}
    {md : MatrixDataset X (FP R)} (h : webInputs env req csv = .ok (ps, md)) {e : PyErr}
    (he : oneAlgorithm env req ps md.data 0 label = .error e) : webRun env req = .error e := by
  rw [webRun_eq (by simp [halg]) hcsv hne h, halg, webLoop, he]

/-- **C52 is false in general**: "usums" with an iterator `fixed-N` of the client raises
`AttributeError`, which nothing catches. -/
theorem C52_unhandled_usums {env : Env X .exact} (henv : WebEnvOk env) (req : Request) (rest : List Text)
    (halg : req.algorithm = "usums".toList :: rest) (csv : Text) (hcsv : req.csv = some csv) (hne : csv ≠ [])
    (ps : Dict Text (PVal Ex)) (hps : getParamDict env.digit env.parseFloat req.parameters = .ok ps)
    (N : Nat) (hN : ps.get? "iterator".toList = some (.iterator (.fixed N)))
    (g : Grid X) (hg : csvToMasked env.parseValue (csv.filter fun c => c ≠ '_') = .ok g)
    (hl : getTriples g ≠ []) : webRun env req = .error .attributeError := by
  obtain ⟨md, hmd, hin⟩ := webInputs_ok hps hg
  have hps' := (C52_parameters env.digit env.parseFloat henv.newline req.parameters).1 ps hps
  refine first_error halg hcsv hne hin ?_
  obtain ⟨a, ha, hp⟩ := (prepare_ok henv hps' "usums".toList).1 .usums rfl
  unfold oneAlgorithm
  rw [hp]
  cases ha with
  | usums it p h1 h2 =>
    have hit : it = .fixed N := by
      rcases h1 with h1 | ⟨h1, -⟩
      · rw [hN] at h1; cases h1; rfl
      · rw [hN] at h1; cases h1
    subst hit
    have hNle : N ≤ 200 := by
      obtain ⟨value, hm⟩ := params_mean env.digit env.parseFloat hps' hN
      cases hm with
      | iterator _ _ h =>
        have : ∀ it, Describes env.digit env.parseFloat 200 value it → it = .fixed N → N ≤ 200 := by
          intro it hd e
          cases hd with
          | fixed ds nl n hds hnl hn => cases e; omega
          | conv => cases e
          | convLimit => cases e
        exact this _ h rfl
    obtain ⟨q, rfl⟩ : ∃ q, p = some q := by
      rcases h2 with ⟨q, -, rfl⟩ | ⟨-, rfl⟩ <;> exact ⟨_, rfl⟩
    have hf := henv.fuel
    have := (C37_other_iterator _ false none md.data hmd hl (.fixed N) nofun q env.fuel
      (env.clock (2 * 0)) {}).2 N rfl (by omega)
    simp only [AnyAlg.run, this]

/-- **C52 is false in general**: if every source makes one claim, "average_log" with its
default iterator raises `ValueError` when the graph is drawn, which nothing catches. -/
theorem C52_unhandled_average_log {env : Env X .exact} (henv : WebEnvOk env) (req : Request)
    (rest : List Text) (halg : req.algorithm = "average_log".toList :: rest) (csv : Text)
    (hcsv : req.csv = some csv) (hne : csv ≠ []) (ps : Dict Text (PVal Ex))
    (hps : getParamDict env.digit env.parseFloat req.parameters = .ok ps)
    (hN : ps.get? "iterator".toList = none)
    (g : Grid X) (hg : csvToMasked env.parseValue (csv.filter fun c => c ≠ '_') = .ok g)
    (hl : getTriples g ≠ [])
    (hone : ∀ s ∈ allSources (getTriples g), (claimsOf (getTriples g) s).card = 1) :
    webRun env req = .error .valueError := by
  obtain ⟨md, hmd, hin⟩ := webInputs_ok hps hg
  have hps' := (C52_parameters env.digit env.parseFloat henv.newline req.parameters).1 ps hps
  refine first_error halg hcsv hne hin ?_
  obtain ⟨a, ha, hp⟩ := (prepare_ok henv hps' "average_log".toList).1 .averageLog rfl
  unfold oneAlgorithm
  rw [hp]
  cases ha with
  | averageLog it p h1 h2 =>
    have hit : it = .fixed (20 : Nat) := by
      rcases h1 with h1 | ⟨-, h1⟩
      · rw [hN] at h1; cases h1
      · exact h1
    subst hit
    obtain ⟨q, rfl⟩ : ∃ q, p = some q := by
      rcases h2 with ⟨q, -, rfl⟩ | ⟨-, rfl⟩ <;> exact ⟨_, rfl⟩
    have hf := henv.fuel
    obtain ⟨r, hr, -, -, hb⟩ := C32_nan_fixed _ false none md.data hmd hl hone q 20 env.fuel
      (by norm_num) (by omega) (env.clock (2 * 0)) {}
    have hr' : (AnyAlg.iter ⟨.averageLog, .fixed (20 : Nat), some q⟩).run md.data env.fuel
      (env.clock (2 * 0)) = .ok r := hr
    simp only [hr']
    obtain ⟨K, _, key, hlt⟩ := henv.lt
    obtain ⟨fields, hfi, -, -⟩ := C51_output key env.ltVal hlt r (C51_runs _ _ _ _ r hr') none none
    obtain ⟨c, hc⟩ : ∃ c, (claims (getTriples g)).head? = some c := by
      cases h : claims (getTriples g) with
      | nil => exact absurd h (claims_ne hl)
      | cons c L => exact ⟨c, rfl⟩
    have hcol : (gradientScheme r).node (.claim c.1 c.2) = .error .valueError := by
      have hm : c ∈ allClaims (getTriples g) :=
        (mem_allClaims _).2 (List.mem_of_mem_head? hc)
      have := hb c.1 c.2
      rw [if_pos hm] at this
      cases hx : r.belief.get? c.1 with
      | none => rw [hx] at this; cases this
      | some b =>
        rw [hx] at this
        have hx' : b.get? c.2 = some Ex.nan := this
        have hsp := (C56_special .exact exact_nine).1
        simp only [gradientScheme, defaultScheme, bind, Except.bind, pure, Except.pure, Dict.get, hx, hx']
        have e : gradedColours (Ex.nan : Ex) = .error .valueError := hsp
        rw [e]
    have hrender : ((webRenderer env (gradientScheme r)).render {} md.data none).2 = .error .valueError := by
      rw [mk'_ex hmd]
      have hbody := body_claim_error (α := Ex) (webRenderer env (gradientScheme r)) (getTriples g) none
        ((webRenderer env (gradientScheme r)).getHeight (datasetOf (α := Ex) (getTriples g) none)) ex_one_ne_zero
        (fun a b => decide_eq_decide.2 Iff.rfl) hc hcol none
      have hbody' : (webRenderer env (gradientScheme r)).body
          ((webRenderer env (gradientScheme r)).getHeight (datasetOf (α := Ex) (getTriples g) none))
          (datasetOf (α := Ex) (getTriples g) none) none = .error .valueError := by convert hbody
      unfold Renderer.render Renderer.compile
      generalize (webRenderer env (gradientScheme r)).getHeight (datasetOf (α := Ex) (getTriples g) none) = H
        at hbody' ⊢
      have e : (if H = 0 then H else H) = H := by split <;> rfl
      simp only [e]
      rw [hbody']
      rfl
    unfold present
    simp only [hfi, hrender, bind, Except.bind]

/-- **C52 is false in general**: a "previous_results" that is JSON but not an object raises
`TypeError`, which nothing catches. -/
theorem C52_unhandled_previous {env : Env X .exact} (henv : WebEnvOk env) (req : Request)
    (rest : List Text) (halg : req.algorithm = "voting".toList :: rest) (csv : Text)
    (hcsv : req.csv = some csv) (hne : csv ≠ []) (ps : Dict Text (PVal Ex))
    (hps : getParamDict env.digit env.parseFloat req.parameters = .ok ps)
    (g : Grid X) (hg : csvToMasked env.parseValue (csv.filter fun c => c ≠ '_') = .ok g)
    (hl : getTriples g ≠ []) (t : Text) (ht : req.previousResults = some t) (j : WJson Ex)
    (hj : env.parseJson t = some j) (hobj : ∀ fs, j ≠ .obj fs) :
    webRun env req = .error .typeError := by
  obtain ⟨md, hmd, hin⟩ := webInputs_ok hps hg
  have hps' := (C52_parameters env.digit env.parseFloat henv.newline req.parameters).1 ps hps
  refine first_error halg hcsv hne hin ?_
  obtain ⟨a, ha, hp⟩ := (prepare_ok henv hps' "voting".toList).1 .voting rfl
  unfold oneAlgorithm
  rw [hp]
  cases ha
  obtain ⟨r, hr, hrep, -⟩ := C29_voting _ false none md.data hmd hl (env.clock (2 * 0))
  have hr' : (AnyAlg.voting : AnyAlg Ex).run md.data env.fuel (env.clock (2 * 0)) = .ok r := hr
  simp only [hr']
  have hpos : NonNeg (getTriples g) (voting (getTriples g)) :=
    ⟨fun _ _ => zero_le_one, fun c' hc' => scaled_nonneg hc' (nSources_pos _ ((mem_allClaims _).1 hc')).le⟩
  obtain ⟨K, _, key, hlt⟩ := henv.lt
  obtain ⟨fields, hfi, -, -⟩ := C51_output key env.ltVal hlt r (C51_runs _ _ _ _ r hr') none none
  obtain ⟨frame, hframe, -⟩ := graph_ok env hmd hrep hpos {}
  have hdiff : webDiff env req.previousResults r = .error .typeError := by
    rw [ht]
    unfold webDiff getResultsObject
    dsimp only
    rw [hj]
    cases j with
    | obj fs => exact absurd rfl (hobj fs)
    | _ => rfl
  unfold present
  simp only [hfi, hframe, hdiff, webAnimation, bind, Except.bind]

/-! ### Examples -/
section
open Toy

/-- A previous result as JSON. -/
noncomputable def demoPrevious : WJson Ex :=
  .obj [("trust".toList, numsObj [("i".toList, Ex.fin 1)]),
    ("belief".toList, .obj [("i".toList, numsObj [("iii".toList, Ex.fin 1)])]),
    ("time".toList, .num (Ex.fin 0)), ("iterations".toList, .null)]

noncomputable def demoFloat (t : Text) : Option Ex := if t = "2".toList then some (Ex.fin 2) else none

noncomputable def demoJson (t : Text) : Option (WJson Ex) :=
  if t = "[]".toList then some (.arr []) else if t = "r".toList then some demoPrevious else none

/-- Digits as values, two JSON texts. -/
noncomputable def demoEnv : Env (Fin 10) .exact where
  digit := asciiDigit
  parseFloat := demoFloat
  parseValue := parseDigit
  parseJson := demoJson
  strNat := fun n => List.replicate n 'i'
  strVal := fun x => List.replicate x.val 'i'
  ltVal := fun a b => decide (a < b)
  ord := id
  clock := fun _ _ => Ex.fin 0
  fuel := 2000000

theorem demo_float : demoEnv.parseFloat "2".toList = some (Ex.fin 2) := by
  have h : demoFloat "2".toList = some (Ex.fin 2) := by
    unfold demoFloat
    rw [if_pos rfl]
  exact h

theorem demo_arr : demoEnv.parseJson "[]".toList = some (.arr []) := by
  have h : demoJson "[]".toList = some (.arr []) := by
    unfold demoJson
    rw [if_pos rfl]
  exact h

theorem demo_previous : demoEnv.parseJson "r".toList = some demoPrevious := by
  have h : demoJson "r".toList = some demoPrevious := by
    unfold demoJson
    rw [if_neg (by decide), if_pos rfl]
  exact h

theorem demoEnv_ok : WebEnvOk demoEnv where
  newline := asciiDigit_newline
  ord := fun L => .refl L
  lt := ⟨Fin 10, inferInstance, id, fun _ _ => decide_eq_decide.2 Iff.rfl⟩
  strNat := fun a b h => by
    have h' : List.replicate a 'i' = List.replicate b 'i' := h
    simpa using congrArg List.length h'
  strVal := fun a b h => by
    have h' : List.replicate a.val 'i' = List.replicate b.val 'i' := h
    exact Fin.ext (by simpa using congrArg List.length h')
  fuel := by
    show _ ≤ 2000000
    norm_num

/-- Two sources that disagree, and a second variable. -/
def demoRequest : Request where
  algorithm := ["voting".toList, "sums".toList]
  csv := some "1,2\n3,_".toList
  parameters := some "priors=count\ng=2".toList
  previousResults := some "r".toList

theorem demo_params : getParamDict demoEnv.digit demoEnv.parseFloat demoRequest.parameters =
    .ok [("priors".toList, .prior .count), ("g".toList, .num (Ex.fin 2))] := by
  have h1 : algorithmParameter (α := Ex) demoEnv.digit demoEnv.parseFloat "priors=count".toList =
      .ok ("priors".toList, .prior .count) := by
    refine ((C49_parameter _ _ asciiDigit_newline _).1 _ _).2 ⟨"count".toList, ?_, .priors .count⟩
    exact ⟨"priors".toList, "count".toList, by decide, by decide,
      by rw [show "priors".toList = strip "priors".toList by decide]; exact strip_stripped _,
      by rw [show "count".toList = strip "count".toList by decide]; exact strip_stripped _⟩
  have h2 : algorithmParameter (α := Ex) demoEnv.digit demoEnv.parseFloat "g=2".toList =
      .ok ("g".toList, .num (Ex.fin 2)) := by
    refine ((C49_parameter _ _ asciiDigit_newline _).1 _ _).2 ⟨"2".toList, ?_, ?_⟩
    · exact ⟨"g".toList, "2".toList, by decide, by decide,
        by rw [show "g".toList = strip "g".toList by decide]; exact strip_stripped _,
        by rw [show "2".toList = strip "2".toList by decide]; exact strip_stripped _⟩
    · exact .num _ _ _ (by decide) (by decide) demo_float
  have h3 : split '\n' "priors=count\ng=2".toList = ["priors=count".toList, "g=2".toList] := by decide
  simp only [getParamDict, demoRequest, h3, List.foldlM_cons, List.foldlM_nil, h1, h2, bind, Except.bind,
    pure, Except.pure]
  rfl

theorem demo_csv : csvToMasked demoEnv.parseValue ("1,2\n3,_".toList.filter fun c => c ≠ '_') =
    .ok [[some 1, some 2], [some 3, none]] := by
  show csvToMasked parseDigit _ = _
  decide

/-- The hypotheses of the theorem hold for it. -/
theorem demo_answer : ∃ d resp, Dataset.mk' (getTriples [[some 1, some 2], [some 3, none]]) false none = .ok d ∧
    webRun demoEnv demoRequest = .ok resp ∧
    Answer demoEnv demoRequest.previousResults
      [("priors".toList, .prior .count), ("g".toList, .num (Ex.fin 2))]
      (getTriples [[some 1, some 2], [some 3, none]]) d demoRequest.algorithm resp := by
  obtain ⟨d, hd, h⟩ := C52_answer_partial demoEnv_ok demoRequest (by simp [demoRequest]) _ rfl (by decide) _
    demo_params _ demo_csv
    (.good _ _ [("i".toList, Ex.fin 1)] [("i".toList, [("iii".toList, Ex.fin 1)])] (Ex.fin 0) none
      demo_previous
      ⟨⟨_, rfl, rfl, rfl, rfl, rfl⟩, by decide, by decide, by
        intro v b h
        have := mem_of_lookup_some h
        simp only [List.mem_singleton, Prod.mk.injEq] at this
        rw [this.2]; decide⟩)
    (by
      intro _ c cfg hc hcon
      simp only [demoRequest, List.mem_cons, List.not_mem_nil, or_false] at hc
      rcases hc with hc | hc
      · obtain rfl := labelName_injective (e := .voting) hc
        cases hcon
      · obtain rfl := labelName_injective (e := .sums) hc
        cases hcon with
        | sums it p h1 h2 =>
          show p ≠ none
          rcases h2 with ⟨q, -, rfl⟩ | ⟨-, rfl⟩ <;> nofun)
  obtain ⟨resp, h1, h2⟩ := h (by
    intro i hi
    match i with
    | 0 => cases hi
    | 1 => cases hi
    | _ + 2 => cases hi)
  exact ⟨d, resp, hd, h1, h2⟩

/-- A request that is not answered. -/
example : webRun demoEnv { demoRequest with previousResults := some "[]".toList } = .error .typeError :=
  C52_unhandled_previous demoEnv_ok _ _ rfl _ rfl (by decide) _ demo_params _ demo_csv (by decide) _ rfl
    (.arr []) demo_arr nofun

end
end
end TD
