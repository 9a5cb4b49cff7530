import Verif.Spec.Cli
import Verif.Props.Web
import Verif.Props.Synthetic
/-!
# The command line (C65, C66, C67)
-/

namespace TD
open Spec

/-! ### Options -/

theorem mapM_ok_iff {β γ : Type} {f : β → Except PyErr γ} {L : List β} {ys : List γ} :
    L.mapM f = .ok ys ↔ List.Forall₂ (fun x y => f x = .ok y) L ys := by
  induction L generalizing ys with
  | nil =>
    constructor
    · intro h; cases h; exact .nil
    · intro h; cases h; rfl
  | cons x L ih =>
    rw [List.mapM_cons]
    cases hx : f x with
    | error e =>
      constructor
      · intro h; cases h
      · intro h; cases h with
        | cons h _ => rw [hx] at h; cases h
    | ok y =>
      cases hL : L.mapM f with
      | error e =>
        constructor
        · intro h; simp [bind, Except.bind] at h
        · intro h; cases h with
          | cons _ h => rw [← ih, hL] at h; cases h
      | ok zs =>
        have := (ih (ys := zs)).1 hL
        constructor
        · intro h
          simp only [bind, Except.bind, pure, Except.pure, Except.ok.injEq] at h
          subst h
          exact .cons hx this
        · intro h
          cases h with
          | cons h1 h2 =>
            rw [hx] at h1; cases h1
            rw [← ih, hL] at h2; cases h2
            rfl

/-- An option that may be absent. -/
theorem optional_each {β γ : Type} {f : β → Except PyErr γ} {P : β → γ → Prop}
    (h : ∀ x y, f x = .ok y ↔ P x y) {t : Option (List β)} {o : Option (List γ)} :
    optional (List.mapM f) t = .ok o ↔ Each P t o := by
  cases t with
  | none =>
    constructor
    · intro h; cases h; exact .absent
    · intro h; cases h; rfl
  | some L =>
    cases hL : L.mapM f with
    | error e =>
      constructor
      · intro h; simp [optional, hL, Except.map] at h
      · intro h'
        cases h' with
        | given _ xs h' =>
          rw [mapM_ok_iff.2 (h'.imp fun x y => (h x y).2)] at hL
          cases hL
    | ok ys =>
      constructor
      · intro h'
        simp only [optional, hL, Except.map, Except.ok.injEq] at h'
        subst h'
        exact .given _ _ ((mapM_ok_iff.1 hL).imp fun x y => (h x y).1)
      · intro h'
        cases h' with
        | given _ xs h' =>
          have := mapM_ok_iff.2 (h'.imp fun x y => (h x y).2)
          simp [optional, this, Except.map]

theorem readField_iff (t : Text) (f : Field) : readField t = .ok f ↔ t = (fieldName f).toList := by
  constructor
  · intro h
    unfold readField at h
    split at h; · cases h; assumption
    split at h; · cases h; assumption
    split at h; · cases h; assumption
    split at h; · cases h; assumption
    split at h; · cases h; assumption
    split at h; · cases h; assumption
    split at h; · cases h; assumption
    split at h; · cases h; assumption
    cases h
  · rintro rfl
    cases f <;> decide

section
variable {X : Type} [DecidableEq X] {R : Rounding}

theorem readInt'_iff (env : CliEnv X R) (t : Text) (n : Int) :
    readInt' env t = .ok n ↔ env.parseInt t = some n := by
  unfold readInt'
  cases env.parseInt t <;> simp

theorem readFloat_iff (env : CliEnv X R) (t : Text) (x : FP R) :
    readFloat env t = .ok x ↔ env.parseFloat t = some x := by
  unfold readFloat
  cases env.parseFloat t <;> simp

theorem except_cases {β : Type} (x : Except PyErr β) : (∃ e, x = .error e) ∨ ∃ y, x = .ok y := by
  cases x
  · exact .inl ⟨_, rfl⟩
  · exact .inr ⟨_, rfl⟩

/-- Parsing succeeds exactly on accepted options. -/
theorem parseRun_iff (env : CliEnv X R) (hnl : env.digit '\n' = none) (a : RunArgs) (p : RunParsed R) :
    parseRun env a = .ok p →
      RunAccepted env a p.algClasses (p.algParams.getD []) p.sources p.vars p.outputFields := by
  intro h
  unfold parseRun at h
  simp only [bind, Except.bind, pure, Except.pure] at h
  split at h; · cases h
  rename_i cs h1
  split at h; · cases h
  rename_i kvs h2
  split at h; · cases h
  rename_i ss h3
  split at h; · cases h
  rename_i vs h4
  split at h; · cases h
  rename_i fs h5
  cases h
  have h2' := (optional_each (P := fun t kv => ∃ value, Assignment t kv.1 value ∧
    Means env.digit env.parseFloat kv.1 value kv.2)
    (fun t kv => (C49_parameter env.digit env.parseFloat hnl t).1 kv.1 kv.2)).1 h2
  refine ⟨?_, ?_, (optional_each (readInt'_iff env)).1 h3, (optional_each (readInt'_iff env)).1 h4, ?_⟩
  · exact (mapM_ok_iff.1 h1).imp fun t c => ((C50_label t).1 c).1
  · show List.Forall₂ _ (a.params.getD []) (kvs.getD [])
    generalize a.params = t at h2'
    cases h2' with
    | absent => exact .nil
    | given ts xs h => exact h
  · have h5' := (optional_each readField_iff).1 h5
    show (a.output = none ∧ fs.getD _ = _) ∨ ∃ ts, a.output = some ts ∧ List.Forall₂ _ ts (fs.getD _)
    generalize a.output = t at h5'
    cases h5' with
    | absent => exact .inl ⟨rfl, rfl⟩
    | given ts xs h => exact .inr ⟨_, rfl, h⟩

/-- Accepted options are parsed. -/
theorem parseRun_ok (env : CliEnv X R) (hnl : env.digit '\n' = none) (a : RunArgs) {cs : List AlgLabel}
    {kvs : List (Text × PVal (FP R))} {ss vs : Option (List Int)} {fields : List Field}
    (h : RunAccepted env a cs kvs ss vs fields) :
    ∃ p, parseRun env a = .ok p ∧ p.algClasses = cs ∧ p.algParams.getD [] = kvs ∧ p.sources = ss ∧
      p.vars = vs ∧ p.outputFields = fields := by
  have h1 : a.algorithms.mapM algorithmCls = .ok cs :=
    mapM_ok_iff.2 (h.classes.imp fun t c => ((C50_label t).1 c).2)
  obtain ⟨o2, h2, e2⟩ : ∃ o, optional (List.mapM (algorithmParameter env.digit env.parseFloat)) a.params = .ok o ∧
      o.getD [] = kvs := by
    have hp := h.params
    have hconv : ∀ t kv, algorithmParameter env.digit env.parseFloat t = .ok kv ↔
        ∃ value, Assignment t kv.1 value ∧ Means env.digit env.parseFloat kv.1 value kv.2 :=
      fun t kv => (C49_parameter env.digit env.parseFloat hnl t).1 kv.1 kv.2
    cases ht : a.params with
    | none =>
      rw [ht] at hp
      cases hp
      exact ⟨none, rfl, rfl⟩
    | some ts =>
      rw [ht] at hp
      exact ⟨some kvs, (optional_each hconv).2 (.given _ _ hp), rfl⟩
  have h3 := (optional_each (readInt'_iff env)).2 h.sources
  have h4 := (optional_each (readInt'_iff env)).2 h.vars
  obtain ⟨o5, h5, e5⟩ : ∃ o, optional (List.mapM readField) a.output = .ok o ∧
      o.getD [.trust, .belief, .iterations, .time] = fields := by
    rcases h.output with ⟨e, rfl⟩ | ⟨ts, e, hf⟩
    · rw [e]; exact ⟨none, rfl, rfl⟩
    · rw [e]; exact ⟨some fields, (optional_each readField_iff).2 (.given _ _ hf), rfl⟩
  refine ⟨⟨cs, o2, ss, vs, fields⟩, ?_, rfl, e2, rfl, rfl, rfl⟩
  unfold parseRun
  simp only [h1, h2, h3, h4, h5, e5, bind, Except.bind, pure, Except.pure]

/-! ### `run` -/

/-- What the environment has to provide. -/
structure CliEnvOk (env : CliEnv X R) : Prop where
  newline : env.digit '\n' = none
  ord : ∀ L, (env.ord L).Perm L
  lt : ∃ (K : Type) (_ : LinearOrder K) (key : X → K), ∀ x y, env.ltVal x y = decide (key x < key y)

theorem lastOf_ofPairs {ν : Type} (kvs : List (Text × ν)) :
    LastOf kvs (Dict.ofPairs kvs) ∧ (Dict.ofPairs kvs).keys.Nodup := by
  constructor
  · intro k
    show (kvs.foldl (fun (a : Dict Text ν) p => a.set p.1 p.2) []).get? k = _
    rw [get?_setAll]
    simp [Dict.get?]
  · exact nodup_setAll kvs [] (by simp [Dict.keys])

/-- Messages, see `messages_ok`. -/
theorem warnings_ok {ord : List Text → List Text} (hord : ∀ L, (ord L).Perm L)
    {ps : Dict Text (PVal (FP R))} (hnd : ps.keys.Nodup) (c : AlgLabel) :
    Warnings ps c (if (getAlgorithmParams ord c ps).2.isEmpty then []
      else ["WARNING: ".toList ++ ignoredMessage c (getAlgorithmParams ord c ps).2]) := by
  set names := (getAlgorithmParams ord c ps).2 with hnames
  have hn : names.Nodup := hnd.filter _
  obtain ⟨h1, h2, -⟩ := pySorted_spec (k := (id : Text → Text))
    (lt := fun a b : Text => decide (a < b)) (fun a b => decide_eq_decide.2 Iff.rfl) names
  refine ⟨if names.isEmpty then [] else [ignoredMessage c names],
    ⟨pySorted (fun a b => decide (a < b)) names, ?_, ?_, ?_⟩, ?_⟩
  · have hn' : (pySorted (fun a b : Text => decide (a < b)) names).Nodup := h2.nodup_iff.2 hn
    exact (h1.and hn').imp fun h => lt_of_le_of_ne h.1 h.2
  · intro k
    rw [h2.mem_iff]
    exact (C50_split ord hord c ps k).2
  · have : (pySorted (fun a b : Text => decide (a < b)) names = []) ↔ names = [] := by
      constructor
      · intro e; rw [e] at h2; exact h2.symm.eq_nil
      · intro e; rw [e] at h2 ⊢; exact h2.eq_nil
    by_cases he : names = []
    · rw [if_pos (this.2 he), he]; rfl
    · rw [if_neg (fun h => he (this.1 h)), if_neg (by simpa using he)]
      unfold ignoredMessage
      rw [joinComma_eq, show c.className = (algorithmClass c).toList by cases c <;> rfl]
  · split <;> rfl

/-- The loop over the classes. -/
theorem algorithms_ok {ord : List Text → List Text} (hord : ∀ L, (ord L).Perm L)
    {ps : Dict Text (PVal (FP R))} (hnd : ps.keys.Nodup)
    (hk : ∀ k v, ps.get? k = some v → WellKinded k v) (cs : List AlgLabel) :
    ∃ wss algs, cliAlgorithms ord ps cs = (wss.flatten, .ok algs) ∧
      List.Forall₂ (Warnings ps) cs wss ∧ algs.map Prod.fst = cs ∧
      ∀ q ∈ algs, Constructed ps q.1 q.2 := by
  induction cs with
  | nil => exact ⟨[], [], rfl, .nil, rfl, by simp⟩
  | cons c cs ih =>
    obtain ⟨wss, algs, e, h1, h2, h3⟩ := ih
    obtain ⟨a, ha, hc⟩ := C50_construct ord hord c ps hk
    refine ⟨_ :: wss, (c, a) :: algs, ?_, .cons (warnings_ok hord hnd c) h1, by simp [h2], ?_⟩
    · simp only [cliAlgorithms, ha, e, List.flatten_cons, Except.map]
    · intro q hq
      rcases List.mem_cons.1 hq with rfl | hq
      · exact hc
      · exact h3 q hq

theorem accepted_kinds {env : CliEnv X R} {a : RunArgs} {cs : List AlgLabel}
    {kvs : List (Text × PVal (FP R))} {ss vs : Option (List Int)} {fields : List Field}
    (h : RunAccepted env a cs kvs ss vs fields) (k : Text) (v : PVal (FP R))
    (hv : (Dict.ofPairs kvs).get? k = some v) : WellKinded k v := by
  rw [(lastOf_ofPairs kvs).1 k, Option.map_eq_some_iff] at hv
  obtain ⟨kv, hf, rfl⟩ := hv
  have hm : kv ∈ kvs := by simpa using List.mem_of_find?_eq_some hf
  have hk : kv.1 = k := by simpa using List.find?_some hf
  subst hk
  have hp := h.params
  clear h hf
  generalize a.params.getD [] = ts at hp
  induction hp with
  | nil => simp at hm
  | cons h1 _ ih =>
    rcases List.mem_cons.1 hm with rfl | hm
    · obtain ⟨_, -, h1⟩ := h1
      exact means_kind _ _ h1
    · exact ih hm

/-- **C65.** Options that are not proper lead to the usage message (exit status 2), and nothing
else happens. -/
theorem C65_usage (env : CliEnv X R) (henv : CliEnvOk env) (a : RunArgs)
    (h : ¬ ∃ cs kvs ss vs fields, RunAccepted env a cs kvs ss vs fields) :
    cliRun env a = ⟨[], .usage⟩ := by
  unfold cliRun
  rcases except_cases (parseRun env a) with ⟨e, he⟩ | ⟨p, hp⟩
  · rw [he]
  · exact absurd ⟨_, _, _, _, _, parseRun_iff env henv.newline a p hp⟩ h

/-- The end of an accepted command, in terms of its parts. -/
theorem cliRun_eq (env : CliEnv X R) (henv : CliEnvOk env) (a : RunArgs) {cs : List AlgLabel}
    {kvs : List (Text × PVal (FP R))} {ss vs : Option (List Int)} {fields : List Field}
    (h : RunAccepted env a cs kvs ss vs fields) :
    ∃ p wss algs, p.algClasses = cs ∧ p.sources = ss ∧ p.vars = vs ∧ p.outputFields = fields ∧
      List.Forall₂ (Warnings (Dict.ofPairs kvs)) cs wss ∧ algs.map Prod.fst = cs ∧
      (∀ q ∈ algs, Constructed (Dict.ofPairs kvs) q.1 q.2) ∧
      cliRun env a = (match cliData env a p with
        | .error e => ⟨wss.flatten, .raised e⟩
        | .ok none => ⟨wss.flatten, .usage⟩
        | .ok (some (d, values)) =>
          match cliLoop env p d values 0 algs [] with
          | .error e => ⟨wss.flatten, .raised e⟩
          | .ok out => ⟨wss.flatten, .done out⟩) := by
  obtain ⟨p, hp, h1, h2, h3, h4, h5⟩ := parseRun_ok env henv.newline a h
  obtain ⟨wss, algs, e, g1, g2, g3⟩ := algorithms_ok henv.ord (lastOf_ofPairs kvs).2 (accepted_kinds h) cs
  refine ⟨p, wss, algs, h1, h3, h4, h5, g1, g2, g3, ?_⟩
  unfold cliRun
  rw [hp]
  simp only [h2, h1, e]
  rfl

/-- **C65.** Accepted options: each algorithm gets a warning on stderr that names, in order,
the given parameters it does not have, and no other warnings are written; asking for the
accuracy without supervised data is a usage error; a file that is not a matrix raises
`ValueError`. -/
theorem C65_warnings (env : CliEnv X R) (henv : CliEnvOk env) (a : RunArgs) {cs : List AlgLabel}
    {kvs : List (Text × PVal (FP R))} {ss vs : Option (List Int)} {fields : List Field}
    (h : RunAccepted env a cs kvs ss vs fields) :
    (∃ ps wss, LastOf kvs ps ∧ ps.keys.Nodup ∧ List.Forall₂ (Warnings ps) cs wss ∧
      (cliRun env a).warnings = wss.flatten) ∧
    (a.supervised = false → .accuracy ∈ fields → (cliRun env a).result = .usage) ∧
    (a.supervised = true ∨ .accuracy ∉ fields → ∀ e, csvToMasked env.parseValue a.dataset = .error e →
      (cliRun env a).result = .raised .valueError) := by
  obtain ⟨p, wss, algs, h1, h2, h3, h4, h5, h6, h7, e⟩ := cliRun_eq env henv a h
  refine ⟨⟨_, wss, (lastOf_ofPairs kvs).1, (lastOf_ofPairs kvs).2, h5, ?_⟩, ?_, ?_⟩
  · rw [e]
    split
    · rfl
    · rfl
    · split <;> rfl
  · intro hs ha
    have : cliData env a p = .ok none := by
      unfold cliData
      rw [if_neg (by simp [hs]), if_pos (h4 ▸ ha)]
      rfl
    rw [e, this]
  · intro hor e' he'
    have : cliData env a p = .error .valueError := by
      unfold cliData
      by_cases hs : a.supervised = true
      · rw [if_pos hs, C13_errors _ _ _ he']
        rfl
      · rw [if_neg hs, if_neg (by rw [h4]; rcases hor with h | h; exact absurd h hs; exact h),
          (C12_from_csv (fp_one_ne_zero R) env.parseValue a.dataset).2 _ he']
        rfl
    rw [e, this]

theorem filter_shaped {r : Result Nat Nat X (FP R)} (h : Shaped r) (ss vs : Option (List Nat)) :
    Shaped (r.filter ss vs) := by
  obtain ⟨h1, h2⟩ := h
  refine ⟨?_, ?_⟩
  · cases vs with
    | none => exact h1
    | some l =>
      show ((filterDict r.belief l).map Prod.fst).Nodup
      rw [keys_filterDict]
      exact (nodup_firsts _).filter _
  · intro v d hd
    rw [(C44_filter r ss vs).2.1 v] at hd
    split at hd
    · exact h2 v d hd
    · cases hd

theorem mem_asLabels {l : Option (List Int)} {n : Nat} :
    (∀ ns, asLabels l = some ns → n ∈ ns) ↔ Requested l n := by
  unfold Requested asLabels
  cases l with
  | none => simp
  | some L =>
    simp only [Option.map_some, Option.some.injEq, forall_eq', List.mem_filterMap]
    constructor
    · rintro ⟨z, hz, e⟩
      have : z = n := by
        cases z with
        | ofNat m => simp [Int.toNat?] at e; simp [e]
        | negSucc m => simp [Int.toNat?] at e
      exact this ▸ hz
    · intro h
      exact ⟨_, h, by simp [Int.toNat?]⟩

theorem filter_restricted (r : Result Nat Nat X (FP R)) (ss vs : Option (List Int)) :
    Restricted r ss vs (r.filter (asLabels ss) (asLabels vs)) := by
  obtain ⟨h1, h2, h3, h4⟩ := C44_filter r (asLabels ss) (asLabels vs)
  refine ⟨?_, ?_, ?_, ?_, h3, h4⟩
  · intro s hs; rw [h1, if_pos (mem_asLabels.2 hs)]
  · intro s hs; rw [h1, if_neg (fun h => hs (mem_asLabels.1 h))]
  · intro s hs; rw [h2, if_pos (mem_asLabels.2 hs)]
  · intro s hs; rw [h2, if_neg (fun h => hs (mem_asLabels.1 h))]

theorem name_eq' (c : AlgLabel) : c.name = (labelName c).toList := by cases c <;> rfl

/-- The loop over the algorithms, after those in `pre`. -/
theorem cliLoop_ok {env : CliEnv X R} (henv : CliEnvOk env) {p : RunParsed R}
    {d : Dataset Nat Nat X (FP R)} {values : Option (Dict Nat X)} {ps : Dict Text (PVal (FP R))}
    {algs : List (AlgLabel × AnyAlg (FP R))} (hcon : ∀ q ∈ algs, Constructed ps q.1 q.2)
    (post pre : List (AlgLabel × AnyAlg (FP R))) (hl : algs = pre ++ post)
    (data : Dict Text (Dict Field (OutVal Nat Nat X (FP R))))
    (h1 : ∀ j < pre.length, ∀ q, algs[j]? = some q → ∃ r, q.2.run d env.fuel (env.clock j) = .ok r)
    (h2 : data.keys = firsts (pre.map fun q => (labelName q.1).toList))
    (h3 : ∀ c o, data.get? (labelName c).toList = some o → ∃ i alg r, pre[i]? = some (c, alg) ∧
      (∀ j, i < j → ∀ q, pre[j]? = some q → q.1 ≠ c) ∧
      alg.run d env.fuel (env.clock i) = .ok r ∧
      Displayed env values p.sources p.vars p.outputFields i r o) :
    RunEnds env ps d values (algs.map Prod.fst) p.sources p.vars p.outputFields
      (match cliLoop env p d values pre.length post data with
        | .error e => .raised e
        | .ok out => .done out) := by
  have hget : ∀ (j : Nat) c alg, (algs.map Prod.fst)[j]? = some c → Constructed ps c alg → algs[j]? = some (c, alg) := by
    intro j c alg hj hc
    rw [List.getElem?_map, Option.map_eq_some_iff] at hj
    obtain ⟨⟨c', alg'⟩, hq, rfl⟩ := hj
    rw [hq, constructed_unique hc (hcon _ (List.mem_of_getElem? hq))]
  induction post generalizing pre data with
  | nil =>
    have e : algs = pre := by simpa using hl
    subst e
    refine .done data ?_ ?_ ?_
    · intro j c' alg' hj hc
      have := hget j c' alg' hj hc
      exact h1 j (List.getElem?_eq_some_iff.1 this).1 _ this
    · rw [h2, List.map_map]; rfl
    · intro c o ho
      obtain ⟨i, alg, r, g1, g2, g3, g4⟩ := h3 c o ho
      refine ⟨i, alg, r, by rw [List.getElem?_map, g1]; rfl, ?_, hcon _ (List.mem_of_getElem? g1), g3, g4⟩
      intro j hj hjc
      rw [List.getElem?_map, Option.map_eq_some_iff] at hjc
      obtain ⟨q, hq, rfl⟩ := hjc
      exact g2 j hj q hq rfl
  | cons q post ih =>
    obtain ⟨c, alg⟩ := q
    have hi : algs[pre.length]? = some (c, alg) := by rw [hl]; simp
    have hc := hcon _ (List.mem_of_getElem? hi)
    cases hrun : alg.run d env.fuel (env.clock pre.length) with
    | error e =>
      have : cliLoop env p d values pre.length ((c, alg) :: post) data = .error e := by
        simp only [cliLoop, hrun, bind, Except.bind]
      rw [this]
      refine .raised pre.length c alg e (by rw [List.getElem?_map, hi]; rfl) hc hrun ?_
      intro j hj c' alg' hj' hc'
      exact h1 j hj _ (hget j c' alg' hj' hc')
    | ok r =>
      obtain ⟨K, _, key, hlt⟩ := henv.lt
      obtain ⟨o, ho, hk, hv⟩ := C51_output key env.ltVal hlt (r.filter (asLabels p.sources) (asLabels p.vars))
        (filter_shaped (C51_runs alg d _ _ r hrun) _ _) (some p.outputFields)
        (values.map fun v => (v, env.pick pre.length))
      have : cliLoop env p d values pre.length ((c, alg) :: post) data =
          cliLoop env p d values (pre ++ [(c, alg)]).length post (data.set (labelName c).toList o) := by
        rw [List.length_append, List.length_singleton]
        simp only [cliLoop, hrun, bind, Except.bind, ho, name_eq']
      rw [this]
      refine ih (pre ++ [(c, alg)]) (by simp [hl]) _ ?_ ?_ ?_
      · intro j hj q hq
        rw [List.length_append, List.length_singleton] at hj
        rcases Nat.lt_succ_iff_lt_or_eq.1 hj with hj | rfl
        · exact h1 j hj q hq
        · rw [hi] at hq; cases hq; exact ⟨r, hrun⟩
      · rw [keys_set, h2, List.map_append, List.map_singleton]
        rw [firsts_append]
        simp only [mem_firsts]
      · intro c' o' ho'
        rw [get?_set] at ho'
        split at ho'
        · rename_i e
          have e := labelName_injective e
          subst e
          cases ho'
          refine ⟨pre.length, alg, r, by simp, ?_, hrun, _, filter_restricted r _ _, ?_, hv⟩
          · intro j hj q hq
            rw [List.getElem?_eq_none (by simp; omega)] at hq
            cases hq
          · intro f
            rw [hk f]
            simp
        · rename_i hne
          obtain ⟨i, alg', r', g1, g2, g3, g4⟩ := h3 c' o' ho'
          have hil : i < pre.length := (List.getElem?_eq_some_iff.1 g1).1
          refine ⟨i, alg', r', by rw [List.getElem?_append_left hil]; exact g1, ?_, g3, g4⟩
          intro j hj q hq
          by_cases hjl : j < pre.length
          · rw [List.getElem?_append_left hjl] at hq; exact g2 j hj q hq
          · rw [List.getElem?_append_right (by omega)] at hq
            have : q = (c, alg) := by
              have := List.mem_of_getElem? hq
              simpa using this
            subst this
            rintro rfl
            exact hne rfl

/-- **C65.** Accepted options and a file that is a matrix: the algorithms run in the given order
on the data of the file with the given parameters; the first exception escapes,
otherwise the output has an entry for each algorithm, with the requested fields of its
result restricted to the requested sources and variables (accuracy only for supervised
data). -/
theorem C65_output (env : CliEnv X R) (henv : CliEnvOk env) (a : RunArgs) {cs : List AlgLabel}
    {kvs : List (Text × PVal (FP R))} {ss vs : Option (List Int)} {fields : List Field}
    (h : RunAccepted env a cs kvs ss vs fields) (hacc : a.supervised = true ∨ .accuracy ∉ fields)
    (g : Grid X) (hg : csvToMasked env.parseValue a.dataset = .ok g) :
    ∃ ps d values, LastOf kvs ps ∧ Loaded env a d values ∧
      RunEnds env ps d values cs ss vs fields (cliRun env a).result := by
  obtain ⟨p, wss, algs, h1, h2, h3, h4, h5, h6, h7, e⟩ := cliRun_eq env henv a h
  obtain ⟨d, values, hload, hdata⟩ : ∃ d values, Loaded env a d values ∧
      cliData env a p = .ok (some (d, values)) := by
    unfold cliData
    by_cases hs : a.supervised = true
    · cases g with
      | nil => exact absurd rfl (C13_has_first_row _ _ _ hg)
      | cons row rest =>
        obtain ⟨s, g1, g2, g3, g4⟩ := C13_first_row_is_truth (fp_one_ne_zero R) env.parseValue a.dataset row rest hg
        refine ⟨s.data.data, some s.values, .supervised row rest _ _ hs hg ?_ g4, ?_⟩
        · simp only [MatrixDataset.mk', bind, Except.bind, pure, Except.pure] at g2
          split at g2; · cases g2
          rename_i d' hd'
          rw [hd', ← Except.ok.inj g2]
        · rw [if_pos hs, g1]
          rfl
    · obtain ⟨md, g1, g2⟩ := (C12_from_csv (fp_one_ne_zero R) env.parseValue a.dataset).1 g hg
      refine ⟨md.data, none, .plain g _ (by simpa using hs) hg ?_, ?_⟩
      · simp only [MatrixDataset.mk', bind, Except.bind, pure, Except.pure] at g2
        split at g2; · cases g2
        rename_i d' hd'
        rw [hd']
        cases g2
        rfl
      · rw [if_neg hs, if_neg (by rw [h4]; rcases hacc with h | h; exact absurd h hs; exact h), g1]
        rfl
  refine ⟨_, d, values, (lastOf_ofPairs kvs).1, hload, ?_⟩
  have key := cliLoop_ok (values := values) (d := d) (p := p) henv h7 algs [] rfl [] (by simp)
    (by simp [Dict.keys, firsts, firstsBy]) (by simp [Dict.get?])
  rw [h6, h2, h3, h4] at key
  rw [e, hdata]
  simp only [List.length_nil] at key ⊢
  cases hloop : cliLoop env p d values 0 algs [] with
  | error x => rw [hloop] at key; exact key
  | ok x => rw [hloop] at key; exact key

/-! ### `synth` -/

theorem optional_is {β γ : Type} {f : β → Except PyErr γ} {t : Option β} {o : Option γ} :
    optional f t = .ok o ↔ (t = none ∧ o = none) ∨ ∃ b y, t = some b ∧ o = some y ∧ f b = .ok y := by
  cases t with
  | none => simp [optional, eq_comm]
  | some b =>
    cases hb : f b with
    | error e => simp [optional, hb, Except.map]
    | ok y => simp [optional, hb, Except.map, eq_comm]

/-- An option with a number, or its default. -/
theorem optional_optionIs {γ : Type} {f : Text → Except PyErr γ} {parse : Text → Option γ}
    (h : ∀ t x, f t = .ok x ↔ parse t = some x) (t : Option Text) (default : γ) :
    (∀ o, optional f t = .ok o → OptionIs parse t default (o.getD default)) ∧
    (∀ x, OptionIs parse t default x → ∃ o, optional f t = .ok o ∧ o.getD default = x) := by
  constructor
  · intro o ho
    rcases optional_is.1 ho with ⟨rfl, rfl⟩ | ⟨b, y, rfl, rfl, hb⟩
    · exact .inl ⟨rfl, rfl⟩
    · exact .inr ⟨b, rfl, (h b y).1 hb⟩
  · rintro x (⟨rfl, rfl⟩ | ⟨s, rfl, hs⟩)
    · exact ⟨none, rfl, rfl⟩
    · exact ⟨some x, optional_is.2 (.inr ⟨s, x, rfl, rfl, (h s x).2 hs⟩), rfl⟩

end
section
variable {X : Type} [DecidableEq X] {R : Rounding}

theorem lit_half : (Arith.lit 1 2 : FP R) = R.rnd (1 / 2) := by
  show R.rnd _ = R.rnd _
  norm_num

theorem parseSynth_iff (env : CliEnv X R) (o : SynthOptions) (a : SynthArgs (FP R)) :
    parseSynth env o = .ok a ↔ SynthMeans env o a := by
  have i1 := optional_optionIs (readInt'_iff env) o.numVars 100
  have i2 := optional_optionIs (readFloat_iff env) o.claimProb (show FP R from R.rnd (1 / 2))
  have i3 := optional_optionIs (readInt'_iff env) o.domainSize 4
  unfold parseSynth
  rw [lit_half]
  simp only [bind, Except.bind, pure, Except.pure]
  constructor
  · intro h
    split at h; · cases h
    rename_i ts h1
    split at h; · cases h
    rename_i n h2
    split at h; · cases h
    rename_i c h3
    split at h; · cases h
    rename_i m h4
    cases h
    exact ⟨⟨ts, rfl, (mapM_ok_iff.1 h1).imp fun t x => (readFloat_iff env t x).1⟩,
      i1.1 _ h2, i2.1 _ h3, i3.1 _ h4⟩
  · rintro ⟨⟨ts, ht, hf⟩, h2, h3, h4⟩
    obtain ⟨n, e2, g2⟩ := i1.2 _ h2
    obtain ⟨c, e3, g3⟩ := i2.2 _ h3
    obtain ⟨m, e4, g4⟩ := i3.2 _ h4
    have e1 : o.trust.mapM (readFloat env) = .ok ts :=
      mapM_ok_iff.2 (hf.imp fun t x => (readFloat_iff env t x).2)
    simp only [e1, e2, e3, e4, g2, g3, g4, ← ht]

/-- With a sampler that works. -/
theorem synth_usage_of (env : CliEnv X R) (g : Rng (FP R)) (hg : UnitDraws g) (k : Nat) (str : Nat → Text)
    (o : SynthOptions)
    (hS : ∀ a, SynthMeans env o a → AcceptedArgs a → ∀ trust : List ℝ, a.trust = some (trust.map FP.fin) →
      ∀ t ∈ trust, 0 ≤ t → t ≤ 1 → Samples g a.domainSize.toNat t) :
    (cliSynth env g k str o = .usage ↔ ¬ ∃ a, SynthMeans env o a ∧ AcceptedArgs a) ∧
    ∀ e, cliSynth env g k str o ≠ .raised e := by
  unfold cliSynth
  rcases except_cases (parseSynth env o) with ⟨e, he⟩ | ⟨a, ha⟩
  · rw [he]
    refine ⟨⟨fun _ => ?_, fun _ => rfl⟩, nofun⟩
    rintro ⟨a, h, -⟩
    rw [← parseSynth_iff, he] at h
    cases h
  · rw [ha]
    obtain ⟨h1, h2⟩ := validation_of g hg a (hS a ((parseSynth_iff env o a).1 ha)) k
    have huniq : (∃ a', SynthMeans env o a' ∧ AcceptedArgs a') ↔ AcceptedArgs a := by
      constructor
      · rintro ⟨a', h, h'⟩
        rw [← parseSynth_iff, ha] at h
        cases h
        exact h'
      · intro h
        exact ⟨a, (parseSynth_iff env o a).1 ha, h⟩
    rw [huniq]
    rcases except_cases (synthNew g a k) with ⟨e, he⟩ | ⟨s, hs⟩
    · obtain rfl := h2 e he
      simp only [he]
      exact ⟨⟨fun _ => h1.1 ⟨_, he⟩, fun _ => trivial⟩, nofun⟩
    · simp only [hs]
      refine ⟨⟨nofun, ?_⟩, nofun⟩
      intro h
      obtain ⟨e, he⟩ := h1.2 h
      rw [hs] at he
      cases he

/-- **C66.** `synth` ends with a usage message exactly if an option is not a number or the
arguments are not valid, whatever numbers are drawn; otherwise it prints a CSV text;
exceptions never escape. -/
theorem C66_usage (env : CliEnv X .exact) (g : Rng Ex) (hg : UnitDraws g) (k : Nat) (str : Nat → Text)
    (o : SynthOptions) :
    (cliSynth env g k str o = .usage ↔ ¬ ∃ a, SynthMeans env o a ∧ AcceptedArgs a) ∧
    ∀ e, cliSynth env g k str o ≠ .raised e := by
  exact synth_usage_of env g hg k str o fun a _ ha _ _ t _ h0 h1 =>
    generateClaim_sat g hg t h0 h1 _ (by have := ha.2.2.1; omega)

theorem strip_newline (t : Text) : strip (t ++ ['\n']) = strip t := by
  unfold strip
  have h : isSpace '\n' = true := by decide
  by_cases ht : ∀ c ∈ t, isSpace c = true
  · have h1 : t.dropWhile isSpace = [] := by rw [List.dropWhile_eq_nil_iff]; exact ht
    have h2 : (t ++ ['\n']).dropWhile isSpace = [] := by
      rw [List.dropWhile_eq_nil_iff]
      intro c hc
      rcases List.mem_append.1 hc with hc | hc
      · exact ht c hc
      · rw [List.mem_singleton.1 hc]; exact h
    rw [h1, h2]
  · have h1 : (t.dropWhile isSpace).isEmpty = false := by
      rw [List.isEmpty_eq_false_iff]
      intro e
      exact ht (List.dropWhile_eq_nil_iff.1 e)
    rw [List.dropWhile_append, h1]
    simp [List.dropWhile_cons, h]

/-- With a sampler that works. -/
theorem synth_output_of (env : CliEnv X R) (g : Rng (FP R)) (hg : UnitDraws g) (k : Nat) (str : Nat → Text)
    (o : SynthOptions) (a : SynthArgs (FP R)) (h : SynthMeans env o a) (ha : AcceptedArgs a)
    (hS : ∀ trust : List ℝ, a.trust = some (trust.map FP.fin) →
      ∀ t ∈ trust, 0 ≤ t → t ≤ 1 → Samples g a.domainSize.toNat t)
    (parse : Text → Parsed Nat) (hrt : RoundTrips str parse) :
    ∃ text trust, ∃ s : SupervisedMatrix Nat (FP R),
      cliSynth env g k str o = .done text ∧ a.trust = some (trust.map FP.fin) ∧
      SupervisedMatrix.fromCsv parse text = .ok s ∧
      SynthShape trust a.numVariables.toNat a.domainSize.toNat s := by
  obtain ⟨s, k', s', h1, h2, h3, h4⟩ := round_trip_of g hg a ha hS k str parse hrt
  obtain ⟨trust, s0, k0, g1, g2, g3, -⟩ := shape_of g hg a ha hS k
  rw [h1] at g2
  cases g2
  refine ⟨synthToCsv str s ++ ['\n'], trust, s', ?_, g1, ?_, ?_⟩
  · unfold cliSynth
    simp only [(parseSynth_iff env o a).2 h, h1]
  · rw [← h2]
    unfold SupervisedMatrix.fromCsv csvToMasked
    rw [strip_newline]
  · obtain ⟨a1, a2, a3, a4, a5, a6, a7, a8, a9, a10⟩ := g3
    refine ⟨h3 ▸ a1, h3 ▸ a2, h3 ▸ a3, h3 ▸ a4, h3 ▸ a5, ?_, ?_, h3 ▸ a8, ?_, ?_⟩
    · intro j; rw [h4]; exact a6 j
    · intro j v; rw [h4]; exact a7 j v
    · intro i j v; rw [h4, h3]; exact a9 i j v
    · intro i j v; rw [h4, h3]; exact a10 i j v

/-- **C66.** What `synth` prints can be read back as supervised data (option `--supervised` of
`run`): one row per trust score, the requested number of variables and domain, every
variable and every source with a claim, sources of trust 1 always right and of trust 0
always wrong. -/
theorem C66_output (env : CliEnv X .exact) (g : Rng Ex) (hg : UnitDraws g) (k : Nat) (str : Nat → Text)
    (o : SynthOptions) (a : SynthArgs Ex) (h : SynthMeans env o a) (ha : AcceptedArgs a)
    (parse : Text → Parsed Nat) (hrt : RoundTrips str parse) :
    ∃ text trust, ∃ s : SupervisedMatrix Nat Ex, cliSynth env g k str o = .done text ∧ a.trust = some (trust.map Ex.fin) ∧
      SupervisedMatrix.fromCsv parse text = .ok s ∧
      SynthShape trust a.numVariables.toNat a.domainSize.toNat s := by
  exact synth_output_of env g hg k str o a h ha (fun _ _ t _ h0 h1 =>
    generateClaim_sat g hg t h0 h1 _ (by have := ha.2.2.1; omega)) parse hrt

end

/-! ### `graph` -/
section
variable {X : Type} [DecidableEq X] {R : Rounding}

theorem cliRenderer_ok (env : CliEnv X R) (o : GraphOptions) {w r s f l b : Int} {first : Nat}
    (h : GraphMeans env o w r s f l b first) :
    ∃ q, cliRenderer env o = .ok q ∧ q = cliDrawing env w r s f l b first := by
  obtain ⟨h1, h2, h3, h4, h5, h6, h7⟩ := h
  obtain ⟨o1, e1, g1⟩ := (optional_optionIs (readInt'_iff env) o.width 800).2 _ h1
  obtain ⟨o2, e2, g2⟩ := (optional_optionIs (readInt'_iff env) o.nodeRadius 50).2 _ h2
  obtain ⟨o3, e3, g3⟩ := (optional_optionIs (readInt'_iff env) o.spacing 20).2 _ h3
  obtain ⟨o4, e4, g4⟩ := (optional_optionIs (readInt'_iff env) o.fontSize 15).2 _ h4
  obtain ⟨o5, e5, g5⟩ := (optional_optionIs (readInt'_iff env) o.lineWidth 3).2 _ h5
  obtain ⟨o6, e6, g6⟩ := (optional_optionIs (readInt'_iff env) o.nodeBorderWidth 3).2 _ h6
  refine ⟨_, ?_, rfl⟩
  unfold cliRenderer
  simp only [e1, e2, e3, e4, e5, e6, g1, g2, g3, g4, g5, g6, bind, Except.bind, pure, Except.pure]
  unfold matrixRenderer cliDrawing
  subst h7
  cases o.oneIndexed <;> rfl

theorem cliRenderer_means (env : CliEnv X R) (o : GraphOptions) {q : Renderer Nat Nat X Text}
    (h : cliRenderer env o = .ok q) : ∃ w r s f l b first, GraphMeans env o w r s f l b first := by
  unfold cliRenderer at h
  simp only [bind, Except.bind, pure, Except.pure] at h
  split at h; · cases h
  rename_i o1 e1
  split at h; · cases h
  rename_i o2 e2
  split at h; · cases h
  rename_i o3 e3
  split at h; · cases h
  rename_i o4 e4
  split at h; · cases h
  rename_i o5 e5
  split at h; · cases h
  rename_i o6 e6
  exact ⟨_, _, _, _, _, _, _,
    (optional_optionIs (readInt'_iff env) o.width 800).1 _ e1,
    (optional_optionIs (readInt'_iff env) o.nodeRadius 50).1 _ e2,
    (optional_optionIs (readInt'_iff env) o.spacing 20).1 _ e3,
    (optional_optionIs (readInt'_iff env) o.fontSize 15).1 _ e4,
    (optional_optionIs (readInt'_iff env) o.lineWidth 3).1 _ e5,
    (optional_optionIs (readInt'_iff env) o.nodeBorderWidth 3).1 _ e6, rfl⟩

/-- **C67.** The image that `graph` writes is the drawing of the matrix in the file with the
requested sizes and numbering. -/
theorem C67_output (env : CliEnv X R) (o : GraphOptions) {w r s f l b : Int} {first : Nat}
    (h : GraphMeans env o w r s f l b first) (g : Grid X)
    (hg : csvToMasked env.parseValue o.dataset = .ok g) :
    let q := cliDrawing env w r s f l b first
    cliGraph env o = .done (picture q (getTriples g) (heightOf q (getTriples g)) kindColour none, w,
      heightOf q (getTriples g)) := by
  intro q
  obtain ⟨q', hq, e⟩ := cliRenderer_ok env o h
  obtain ⟨md, g1, g2⟩ := (C12_from_csv (fp_one_ne_zero R) env.parseValue o.dataset).1 g hg
  have hd : Dataset.mk' (getTriples g) false none = .ok md.data := by
    simp only [MatrixDataset.mk', bind, Except.bind, pure, Except.pure] at g2
    split at g2; · cases g2
    rename_i d' hd'
    rw [hd', ← Except.ok.inj g2]
  have hr := C54_render (fp_one_ne_zero R) hd q (fun a b => decide_eq_decide.2 Iff.rfl)
    (colour := kindColour) (by rintro (_ | _ | _) _ <;> rfl) {} none
  unfold cliGraph
  simp only [hq, g1]
  subst e
  have hr' : ((cliDrawing env w r s f l b first).render {} md.data none).2 =
    .ok (picture q (getTriples g) (heightOf q (getTriples g)) kindColour none, w,
      heightOf q (getTriples g)) := by
    convert hr
    rfl
  rw [hr']

/-- **C67.** `graph` ends with a usage message exactly if a size is not an integer or the file
is not a matrix; exceptions never escape from loading and drawing. -/
theorem C67_usage (env : CliEnv X R) (o : GraphOptions) :
    (cliGraph env o = .usage ↔ (¬ ∃ w r s f l b first, GraphMeans env o w r s f l b first) ∨
      ∃ e, csvToMasked env.parseValue o.dataset = .error e) ∧
    ∀ e, cliGraph env o ≠ .raised e := by
  rcases except_cases (csvToMasked env.parseValue o.dataset) with ⟨e, he⟩ | ⟨g, hg⟩
  · have : cliGraph env o = .usage := by
      unfold cliGraph
      rcases except_cases (cliRenderer env o) with ⟨e', he'⟩ | ⟨q, hq⟩
      · rw [he']
      · simp only [hq, (C12_from_csv (fp_one_ne_zero R) env.parseValue o.dataset).2 e he]
    rw [this]
    exact ⟨⟨fun _ => .inr ⟨e, he⟩, fun _ => rfl⟩, nofun⟩
  · have hne : ¬ ∃ e, csvToMasked env.parseValue o.dataset = .error e := by
      rintro ⟨e, he⟩; rw [hg] at he; cases he
    rcases except_cases (cliRenderer env o) with ⟨e', he'⟩ | ⟨q, hq⟩
    · have : cliGraph env o = .usage := by unfold cliGraph; rw [he']
      rw [this]
      refine ⟨⟨fun _ => .inl ?_, fun _ => rfl⟩, nofun⟩
      rintro ⟨w, r, s, f, l, b, first, h⟩
      obtain ⟨q, hq, -⟩ := cliRenderer_ok env o h
      rw [he'] at hq
      cases hq
    · obtain ⟨w, r, s, f, l, b, first, h⟩ := cliRenderer_means env o hq
      rw [C67_output env o h g hg]
      refine ⟨⟨nofun, ?_⟩, nofun⟩
      rintro (hn | hn)
      · exact absurd ⟨w, r, s, f, l, b, first, h⟩ hn
      · exact absurd hn hne


end

/-! ### Examples -/
section
open Toy

/-- Numbers written with one letter. -/
noncomputable def demoCliFloat (t : Text) : Option Ex :=
  if t = "h".toList then some (Ex.fin (1 / 2)) else if t = "2".toList then some (Ex.fin 2) else none

/-- One digit. -/
def demoInt (t : Text) : Option Int :=
  match t with
  | [c] => (asciiDigit c).map Int.ofNat
  | _ => none

/-- Digits as values. -/
noncomputable def demoCli : CliEnv (Fin 10) .exact where
  digit := asciiDigit
  parseFloat := demoCliFloat
  parseInt := demoInt
  parseValue := parseDigit
  strNat := fun n => List.replicate n 'i'
  strVal := fun x => List.replicate x.val 'i'
  ltVal := fun a b => decide (a < b)
  ord := id
  clock := fun _ _ => Ex.fin 0
  pick := fun _ _ _ => 0
  fuel := 2000000

theorem demoCli_ok : CliEnvOk demoCli where
  newline := asciiDigit_newline
  ord := fun L => .refl L
  lt := ⟨Fin 10, inferInstance, id, fun _ _ => decide_eq_decide.2 Iff.rfl⟩

/-- Two sources that disagree about the first variable, with its true value; an ignored
parameter; a request for one source. -/
def demoRun : RunArgs where
  algorithms := ["voting".toList, "sums".toList]
  params := some ["g=2".toList]
  dataset := "1,\n1,2\n3,".toList
  supervised := true
  sources := some ["1".toList]
  output := some ["accuracy".toList, "trust".toList]

theorem demoRun_accepted : RunAccepted demoCli demoRun [.voting, .sums] [("g".toList, .num (Ex.fin 2))]
    (some [1]) none [.accuracy, .trust] where
  classes := .cons rfl (.cons rfl .nil)
  params := by
    refine .cons ⟨"2".toList, ?_, ?_⟩ .nil
    · exact ⟨"g".toList, "2".toList, by decide, by decide,
        by rw [show "g".toList = strip "g".toList by decide]; exact strip_stripped _,
        by rw [show "2".toList = strip "2".toList by decide]; exact strip_stripped _⟩
    · have h : demoCliFloat "2".toList = some (Ex.fin 2) := by
        unfold demoCliFloat
        rw [if_neg (by decide), if_pos rfl]
      exact .num _ _ _ (by decide) (by decide) h
  sources := .given _ _ (.cons rfl .nil)
  vars := .absent
  output := .inr ⟨_, rfl, .cons rfl (.cons rfl .nil)⟩

theorem demoRun_csv : csvToMasked demoCli.parseValue demoRun.dataset =
    .ok [[some 1, none], [some 1, some 2], [some 3, none]] := by
  show csvToMasked parseDigit "1,\n1,2\n3,".toList = _
  decide

example := C65_output demoCli demoCli_ok demoRun demoRun_accepted (.inl rfl) _ demoRun_csv
example := C65_warnings demoCli demoCli_ok demoRun demoRun_accepted

/-- An unknown algorithm. -/
example : cliRun demoCli { demoRun with algorithms := ["magic".toList] } = ⟨[], .usage⟩ := by
  refine C65_usage demoCli demoCli_ok _ ?_
  rintro ⟨cs, kvs, ss, vs, fields, h, -⟩
  cases h with
  | cons h _ =>
    revert h
    rename_i c _ _
    cases c <;> decide

/-- Two sources, default sizes. -/
def demoSynth : SynthOptions where
  trust := ["h".toList, "h".toList]
  numVars := some "3".toList

noncomputable def demoSynthArgs : SynthArgs Ex :=
  { trust := some [Ex.fin (1 / 2), Ex.fin (1 / 2)], numVariables := 3
    claimProbability := Ex.fin (1 / 2), domainSize := 4 }

theorem demoSynth_means : SynthMeans demoCli demoSynth demoSynthArgs := by
  have h : demoCliFloat "h".toList = some (Ex.fin (1 / 2)) := by
    unfold demoCliFloat
    rw [if_pos rfl]
  exact ⟨⟨_, rfl, .cons h (.cons h .nil)⟩, .inr ⟨_, rfl, rfl⟩, .inl ⟨rfl, rfl⟩, .inl ⟨rfl, rfl⟩⟩

theorem demoSynth_accepted : AcceptedArgs demoSynthArgs := by
  refine ⟨⟨_, rfl, by simp, ?_⟩, Or.inr ⟨1/2, rfl, by norm_num, by norm_num⟩, by decide, by decide⟩
  intro t ht
  simp only [List.mem_cons, List.not_mem_nil, or_false, or_self] at ht
  exact ⟨1/2, ht, by norm_num, by norm_num⟩

example := C66_output demoCli Toy.rng Toy.rng_unit 0 Toy.unary demoSynth demoSynthArgs demoSynth_means
  demoSynth_accepted _ Toy.unary_roundTrips
example := C66_usage demoCli Toy.rng Toy.rng_unit 0 Toy.unary { demoSynth with domainSize := some "1".toList }

/-- A drawing with one size given. -/
def demoGraph : GraphOptions where
  dataset := "1,2\n3,".toList
  width := some "9".toList
  oneIndexed := true

theorem demoGraph_means : GraphMeans demoCli demoGraph 9 50 20 15 3 3 1 where
  width := .inr ⟨_, rfl, rfl⟩
  radius := .inl ⟨rfl, rfl⟩
  spacing := .inl ⟨rfl, rfl⟩
  font := .inl ⟨rfl, rfl⟩
  line := .inl ⟨rfl, rfl⟩
  border := .inl ⟨rfl, rfl⟩
  first := rfl

example := C67_output demoCli demoGraph demoGraph_means [[some 1, some 2], [some 3, none]]
  (show csvToMasked parseDigit "1,2\n3,".toList = _ by decide)

end
end TD
