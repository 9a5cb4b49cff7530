import Verif.Spec.Main
import Verif.Lemmas.Argparse
import Verif.Props.Cli
/-!
# The command line, from its words (C86)
-/

namespace TD
open Spec

/-! ### Last occurrences -/

section
variable {κ : Type} [DecidableEq κ]

def lastOf (k : κ) (acts : List (κ × List Text)) : Option (List Text) :=
  (acts.reverse.find? fun p => decide (p.1 = k)).map Prod.snd

theorem lastOf_nil (k : κ) : lastOf k ([] : List (κ × List Text)) = none := rfl

theorem lastOf_snoc (k : κ) (acts : List (κ × List Text)) (x : κ × List Text) :
    lastOf k (acts ++ [x]) = if x.1 = k then some x.2 else lastOf k acts := by
  unfold lastOf
  rw [List.reverse_append]
  by_cases h : x.1 = k <;> simp [h]

theorem lastOf_none {k : κ} {acts : List (κ × List Text)} : lastOf k acts = none ↔ ∀ vs, (k, vs) ∉ acts := by
  unfold lastOf
  simp only [Option.map_eq_none_iff, List.find?_eq_none, List.mem_reverse, decide_eq_true_eq]
  constructor
  · intro h vs hv
    exact h _ hv rfl
  · rintro h ⟨k', vs⟩ hv rfl
    exact h _ hv

theorem lastOf_append_none {k : κ} {acts post : List (κ × List Text)} (h : ∀ vs, (k, vs) ∉ post) :
    lastOf k (acts ++ post) = lastOf k acts := by
  have := lastOf_none.2 h
  unfold lastOf at this ⊢
  rw [Option.map_eq_none_iff] at this
  rw [List.reverse_append, List.find?_append, this]
  rfl

theorem lastGiven_iff {k : κ} {acts : List (κ × List Text)} {v : Option (List Text)} :
    LastGiven k acts v ↔ lastOf k acts = v := by
  constructor
  · intro h
    cases h with
    | never h => exact lastOf_none.2 h
    | last pre post vs h no =>
      subst h
      have : pre ++ (k, vs) :: post = (pre ++ [(k, vs)]) ++ post := by simp
      rw [this, lastOf_append_none no, lastOf_snoc, if_pos rfl]
  · rintro rfl
    induction acts using List.reverseRecOn with
    | nil => exact .never (by simp)
    | append_singleton acts x ih =>
      obtain ⟨k', vs⟩ := x
      rw [lastOf_snoc]
      by_cases h : k' = k
      · subst h
        rw [if_pos rfl]
        exact .last acts [] vs rfl (by simp)
      · rw [if_neg h]
        generalize lastOf k acts = v at ih
        cases ih with
        | never ih =>
          refine .never fun vs' hv => ?_
          rcases List.mem_append.1 hv with hv | hv
          · exact ih _ hv
          · simp only [List.mem_singleton, Prod.mk.injEq] at hv
            exact h hv.1.symm
        | last pre post us e no =>
          refine .last pre (post ++ [(k', vs)]) us (by simp [e]) fun ws hw => ?_
          rcases List.mem_append.1 hw with hw | hw
          · exact no _ hw
          · simp only [List.mem_singleton, Prod.mk.injEq] at hw
            exact h hw.1.symm

theorem lastOf_mem {k : κ} {acts : List (κ × List Text)} {vs : List Text} (h : lastOf k acts = some vs) :
    (k, vs) ∈ acts := by
  cases lastGiven_iff.2 h with
  | last pre post vs h no => simp [h]

theorem lastOne_iff {k : κ} {acts : List (κ × List Text)} (hs : ∀ vs, (k, vs) ∈ acts → ∃ v, vs = [v])
    {v : Option Text} : LastOne k acts v ↔ (lastOf k acts).bind List.head? = v := by
  unfold LastOne
  rw [lastGiven_iff]
  cases h : lastOf k acts with
  | none => cases v <;> simp
  | some vs =>
    obtain ⟨w, rfl⟩ := hs _ (lastOf_mem h)
    cases v <;> simp

end

/-! ### Actions -/

section
variable {κ σ : Type}

def AllGood (Help : κ → Prop) (Good : List κ → κ → Prop) (acts : List κ) : Prop :=
  ∀ pre x post, acts = pre ++ x :: post → ¬ Help x ∧ Good pre x

theorem AllGood.snoc {Help : κ → Prop} {Good : List κ → κ → Prop} {pre : List κ} {x : κ} (h : AllGood Help Good pre)
    (hx : ¬ Help x) (hg : Good pre x) : AllGood Help Good (pre ++ [x]) := by
  intro p y q e
  rcases List.eq_nil_or_concat q with rfl | ⟨q', z, rfl⟩
  · obtain ⟨e1, e2⟩ := List.append_inj' e rfl
    simp only [List.cons.injEq, and_true] at e2
    subst e1 e2
    exact ⟨hx, hg⟩
  · have e' : pre ++ [x] = (p ++ y :: q') ++ [z] := by simpa using e
    obtain ⟨e', -⟩ := List.append_inj' e' rfl
    exact h p y q' e'

theorem runActions_cases {step : σ → κ → Except Stop σ} (state : List κ → σ) {Help : κ → Prop}
    {Good : List κ → κ → Prop} (acts : List κ)
    (hstep : ∀ pre x, x ∈ acts →
      (Help x ∧ step (state pre) x = .error .help) ∨
      (¬ Help x ∧ Good pre x ∧ step (state pre) x = .ok (state (pre ++ [x]))) ∨
      (¬ Help x ∧ ¬ Good pre x ∧ step (state pre) x = .error .usage)) :
    (AllGood Help Good acts ∧ runActions step (state []) acts = (state acts, none)) ∨
    ∃ pre x post, acts = pre ++ x :: post ∧ AllGood Help Good pre ∧
      ((Help x ∧ runActions step (state []) acts = (state pre, some .help)) ∨
       (¬ Help x ∧ ¬ Good pre x ∧ runActions step (state []) acts = (state pre, some .usage))) := by
  have key : ∀ (rest pre : List κ), acts = pre ++ rest → AllGood Help Good pre →
      (AllGood Help Good acts ∧ runActions step (state pre) rest = (state acts, none)) ∨
      ∃ pre' x post, acts = pre' ++ x :: post ∧ AllGood Help Good pre' ∧
        ((Help x ∧ runActions step (state pre) rest = (state pre', some .help)) ∨
         (¬ Help x ∧ ¬ Good pre' x ∧ runActions step (state pre) rest = (state pre', some .usage))) := by
    intro rest
    induction rest with
    | nil =>
      intro pre e h
      simp only [List.append_nil] at e
      subst e
      exact .inl ⟨h, rfl⟩
    | cons x rest ih =>
      intro pre e h
      rcases hstep pre x (by simp [e]) with ⟨hx, hs⟩ | ⟨hx, hg, hs⟩ | ⟨hx, hg, hs⟩
      · refine .inr ⟨pre, x, rest, e, h, .inl ⟨hx, ?_⟩⟩
        simp only [runActions, hs]
      · have := ih (pre ++ [x]) (by simp [e]) (h.snoc hx hg)
        simpa only [runActions, hs] using this
      · refine .inr ⟨pre, x, rest, e, h, .inr ⟨hx, hg, ?_⟩⟩
        simp only [runActions, hs]
  exact key acts [] rfl (by intro p x q e; simp at e)

end

/-! ### Tables -/

theorem converts_iff {β : Type} {conv : Text → Except PyErr β} {P : Text → β → Prop}
    (h : ∀ t y, conv t = .ok y ↔ P t y) (vs : List Text) : converts conv vs = true ↔ ∀ v ∈ vs, ∃ y, P v y := by
  unfold converts
  simp only [List.all_eq_true]
  refine forall₂_congr fun v _ => ?_
  constructor
  · intro hc
    split at hc
    · rename_i y hy; exact ⟨y, (h _ _).1 hy⟩
    · cases hc
  · rintro ⟨y, hy⟩
    rw [(h _ _).2 hy]

section
variable {κ : Type} {digit : Char → Option Nat} {T : List (Opt κ)}

theorem occurs_takes {w : Text} {vs : List Text} {acts : List (κ × List Text)} (h : Occurs T w vs acts)
    {k : κ} {us : List Text} (hk : (k, us) ∈ acts) : ∃ o ∈ T, o.key = k ∧ Takes o.nargs us := by
  have calls : ∀ {w : Text} {o : Opt κ}, Calls T w o → o ∈ T := by
    intro w o h
    cases h with
    | name _ h => exact h.1
    | abbreviation m _ hn h hm only => exact h.1
  induction h with
  | apart w o vs h ht =>
    simp only [List.mem_singleton, Prod.mk.injEq] at hk
    obtain ⟨rfl, rfl⟩ := hk
    exact ⟨o, calls h, rfl, ht⟩
  | joined n o v h hz =>
    simp only [List.mem_singleton, Prod.mk.injEq] at hk
    obtain ⟨rfl, rfl⟩ := hk
    refine ⟨o, calls h, rfl, ?_⟩
    revert hz
    cases o.nargs <;> simp [Takes]
  | attached c d o v h hz hd =>
    simp only [List.mem_singleton, Prod.mk.injEq] at hk
    obtain ⟨rfl, rfl⟩ := hk
    refine ⟨o, h.1, rfl, ?_⟩
    revert hz
    cases o.nargs <;> simp [Takes]
  | flag c d o r vs acts h hz hd hd' rest ih =>
    rcases List.mem_cons.1 hk with hk | hk
    · simp only [Prod.mk.injEq] at hk
      obtain ⟨rfl, rfl⟩ := hk
      exact ⟨o, h.1, rfl, by rw [hz]; rfl⟩
    · exact ih hk

theorem line_takes {args : List Text} {acts : List (κ × List Text)} (h : Line digit T args acts)
    {k : κ} {us : List Text} (hk : (k, us) ∈ acts) : ∃ o ∈ T, o.key = k ∧ Takes o.nargs us := by
  induction h with
  | nil => cases hk
  | cons w vs ws acts acts' h hv hw rest ih =>
    rcases List.mem_append.1 hk with hk | hk
    · exact occurs_takes h hk
    · exact ih hk

end

theorem run_ok : TableOk runTable where
  shape := by
    rintro n o ⟨ho, hn⟩
    fin_cases ho <;> fin_cases hn <;> first | exact .inl ⟨_, rfl, by decide, by decide⟩ | exact .inr ⟨_, _, rfl, by decide⟩
  unique := by decide

theorem synth_ok : TableOk synthTable where
  shape := by
    rintro n o ⟨ho, hn⟩
    fin_cases ho <;> fin_cases hn <;> first | exact .inl ⟨_, rfl, by decide, by decide⟩ | exact .inr ⟨_, _, rfl, by decide⟩
  unique := by decide

theorem graph_ok' : TableOk graphTable where
  shape := by
    rintro n o ⟨ho, hn⟩
    fin_cases ho <;> fin_cases hn <;> first | exact .inl ⟨_, rfl, by decide, by decide⟩ | exact .inr ⟨_, _, rfl, by decide⟩
  unique := by decide

theorem help_ok : TableOk helpTable where
  shape := by
    rintro n o ⟨ho, hn⟩
    fin_cases ho <;> fin_cases hn <;> first | exact .inl ⟨_, rfl, by decide, by decide⟩ | exact .inr ⟨_, _, rfl, by decide⟩
  unique := by decide

theorem documents_of {κ : Type} {T : List (Opt κ)} {L : List (String × κ × Nargs)}
    (h : T.flatMap (fun o => o.names.map fun n => (n, o.key, o.nargs)) = L.map fun p => (p.1.toList, p.2)) :
    Documents T L := by
  intro n k a
  have : (n, k, a) ∈ T.flatMap (fun o => o.names.map fun n => (n, o.key, o.nargs)) ↔
      (n, k, a) ∈ L.map fun p => (p.1.toList, p.2) := by rw [h]
  simp only [List.mem_flatMap, List.mem_map, Prod.mk.injEq, Prod.exists] at this
  constructor
  · rintro ⟨o, ⟨h1, h2⟩, rfl, rfl⟩
    obtain ⟨s, k', a', h3, h4, h5⟩ := this.1 ⟨o, h1, n, h2, rfl, rfl, rfl⟩
    obtain ⟨rfl, rfl⟩ := h5
    exact ⟨s, h4, h3⟩
  · rintro ⟨s, rfl, hs⟩
    obtain ⟨o, h1, n, h2, rfl, rfl, rfl⟩ := this.2 ⟨s, _, _, hs, rfl, rfl, rfl⟩
    exact ⟨o, ⟨h1, h2⟩, rfl, rfl⟩

/-- The commands have the documented options. -/
theorem C86_options : Documents runTable runOptions ∧ Documents synthTable synthOptions ∧
    Documents graphTable graphOptions ∧ Documents helpTable [("-h", (), .zero), ("--help", (), .zero)] :=
  ⟨documents_of rfl, documents_of rfl, documents_of rfl, documents_of rfl⟩

/-- A command line has at most one reading. -/
theorem C86_one_reading (digit : Char → Option Nat) (hdot : digit '.' = none) (args : List Text) :
    (∀ acts acts', Line digit runTable args acts → Line digit runTable args acts' → acts = acts') ∧
    (∀ acts acts', Line digit synthTable args acts → Line digit synthTable args acts' → acts = acts') ∧
    (∀ acts acts', Line digit graphTable args acts → Line digit graphTable args acts' → acts = acts') := by
  refine ⟨fun acts acts' h h' => ?_, fun acts acts' h h' => ?_, fun acts acts' h h' => ?_⟩
  · have := ((parseLine_iff run_ok hdot _ _).2 h).symm.trans ((parseLine_iff run_ok hdot _ _).2 h')
    exact congrArg Prod.fst this
  · have := ((parseLine_iff synth_ok hdot _ _).2 h).symm.trans ((parseLine_iff synth_ok hdot _ _).2 h')
    exact congrArg Prod.fst this
  · have := ((parseLine_iff graph_ok' hdot _ _).2 h).symm.trans ((parseLine_iff graph_ok' hdot _ _).2 h')
    exact congrArg Prod.fst this

section
variable {X : Type} [DecidableEq X] {R : Rounding}

/-! ### Commands -/

theorem topLoop_word {digit : Char → Option Nat} {name : Text} (h : name.head? ≠ some '-') (args : List Text) :
    topLoop digit false (name :: args) = .command false name args := by
  have h1 : name ≠ ['-', '-'] := by rintro rfl; exact h rfl
  have h2 : parseOptional digit helpTable name = some (.arg name) := by
    unfold parseOptional
    exact if_pos h
  show (if name = ['-', '-'] then _ else _) = _
  refine (if_neg h1).trans ?_
  rw [h2]

/-- Without words the help text is printed. -/
theorem C86_no_words (env : CliEnv X R) (g : Rng (FP R)) (k : Nat) (str : Nat → Text) (disk : Disk) :
    cliMain env g k str disk [] = ⟨disk.files, [], .help⟩ := rfl

/-- The first word must be the name of a command. -/
theorem C86_unknown_command (env : CliEnv X R) (g : Rng (FP R)) (k : Nat) (str : Nat → Text) (disk : Disk)
    (name : Text) (args : List Text) (h : name.head? ≠ some '-')
    (hn : ∀ c ∈ ["run", "synth", "graph", "httpd"], name ≠ c.toList) :
    cliMain env g k str disk (name :: args) = ⟨disk.files, [], .usage⟩ := by
  unfold cliMain
  rw [topLoop_word h]
  exact (if_neg (hn "run" (by simp))).trans <| (if_neg (hn "synth" (by simp))).trans <|
    (if_neg (hn "graph" (by simp))).trans <| if_neg (hn "httpd" (by simp))

theorem main_run (env : CliEnv X R) (g : Rng (FP R)) (k : Nat) (str : Nat → Text) (disk : Disk) (args : List Text) :
    cliMain env g k str disk ("run".toList :: args) = runCommand env disk false args := by
  unfold cliMain
  rw [topLoop_word (by decide)]
  exact if_pos rfl

theorem main_synth (env : CliEnv X R) (g : Rng (FP R)) (k : Nat) (str : Nat → Text) (disk : Disk) (args : List Text) :
    cliMain env g k str disk ("synth".toList :: args) = synthCommand env g k str disk false args := by
  unfold cliMain
  rw [topLoop_word (by decide)]
  exact (if_neg (by decide)).trans (if_pos rfl)

theorem main_graph (env : CliEnv X R) (g : Rng (FP R)) (k : Nat) (str : Nat → Text) (disk : Disk) (args : List Text) :
    cliMain env g k str disk ("graph".toList :: args) = graphCommand env disk false args := by
  unfold cliMain
  rw [topLoop_word (by decide)]
  exact (if_neg (by decide)).trans <| (if_neg (by decide)).trans (if_pos rfl)

theorem main_httpd (env : CliEnv X R) (g : Rng (FP R)) (k : Nat) (str : Nat → Text) (disk : Disk) (args : List Text) :
    cliMain env g k str disk ("httpd".toList :: args) = httpdCommand env.digit disk false args := by
  unfold cliMain
  rw [topLoop_word (by decide)]
  exact (if_neg (by decide)).trans <| (if_neg (by decide)).trans <| (if_neg (by decide)).trans (if_pos rfl)

/-! ### `run` -/

def runSpace (acts : List (RunOpt × List Text)) : RunSpace where
  algorithms := lastOf .algorithm acts
  params := lastOf .params acts
  dataset := (lastOf .dataset acts).bind List.head?
  supervised := (lastOf .supervised acts).isSome
  sources := lastOf .sources acts
  vars := lastOf .vars acts
  output := lastOf .output acts

theorem opens_iff {disk : Disk} {p : Text} : disk.opens disk.files p = true ↔ ∃ s, Contains disk p s := by
  unfold Disk.opens Contains
  by_cases h : p = ['-']
  · simp [h]
  · cases disk.files p <;> simp [h]

theorem contents_iff {disk : Disk} {p s : Text} (h : disk.opens disk.files p = true) :
    disk.contents disk.files p = s ↔ Contains disk p s := by
  unfold Disk.opens at h
  unfold Disk.contents Contains
  by_cases hp : p = ['-']
  · subst hp
    constructor
    · rintro rfl; exact .inl ⟨rfl, rfl⟩
    · rintro (⟨-, h'⟩ | ⟨h', -⟩)
      · exact h'.symm
      · exact (h' rfl).elim
  · cases hf : disk.files p with
    | none => simp [hp, hf] at h
    | some t =>
      simp only [hp, decide_false, hf, Option.isSome_some, Bool.and_true, Bool.false_or] at h
      simp [hp, h]

theorem param_iff {env : CliEnv X R} (hnl : env.digit '\n' = none) (vs : List Text) :
    converts (algorithmParameter env.digit env.parseFloat) vs = true ↔ ∀ v ∈ vs, ∃ name value x,
      Assignment v name value ∧ Means env.digit env.parseFloat name value x := by
  rw [converts_iff (P := fun t kv => ∃ value, Assignment t kv.1 value ∧
    Means env.digit env.parseFloat kv.1 value kv.2)
    (fun t kv => (C49_parameter env.digit env.parseFloat hnl t).1 kv.1 kv.2)]
  refine forall₂_congr fun v _ => ?_
  constructor
  · rintro ⟨⟨name, x⟩, value, h⟩
    exact ⟨name, value, x, h⟩
  · rintro ⟨name, value, x, h⟩
    exact ⟨⟨name, x⟩, value, h⟩

theorem runStep_cases (env : CliEnv X R) (hnl : env.digit '\n' = none) (disk : Disk)
    (pre : List (RunOpt × List Text)) (x : RunOpt × List Text) (hx : x.1 = .dataset → ∃ v, x.2 = [v]) :
    (x.1 = .help ∧ runStep env disk (runSpace pre) x = .error .help) ∨
    (¬ x.1 = .help ∧ (∀ v ∈ x.2, RunValue env disk x.1 v) ∧
      runStep env disk (runSpace pre) x = .ok (runSpace (pre ++ [x]))) ∨
    (¬ x.1 = .help ∧ ¬ (∀ v ∈ x.2, RunValue env disk x.1 v) ∧ runStep env disk (runSpace pre) x = .error .usage) := by
  obtain ⟨k, vs⟩ := x
  cases k
  case help => exact .inl ⟨rfl, rfl⟩
  case supervised =>
    refine .inr (.inl ⟨nofun, fun _ _ => trivial, ?_⟩)
    simp [runStep, runSpace, lastOf_snoc]
  case dataset =>
    obtain ⟨v, hv⟩ := hx rfl
    simp only at hv
    subst hv
    by_cases h : disk.opens disk.files v = true
    · refine .inr (.inl ⟨nofun, ?_, ?_⟩)
      · simpa [RunValue] using opens_iff.1 h
      · simp [runStep, h, runSpace, lastOf_snoc]
    · refine .inr (.inr ⟨nofun, ?_, ?_⟩)
      · simpa [RunValue] using fun s hs => h (opens_iff.2 ⟨s, hs⟩)
      · simp [runStep, h]
  case algorithm =>
    have hc := converts_iff (fun t c => (C50_label t).1 c) vs
    by_cases h : converts algorithmCls vs = true
    · exact .inr (.inl ⟨nofun, hc.1 h, by simp [runStep, h, runSpace, lastOf_snoc]⟩)
    · exact .inr (.inr ⟨nofun, fun hv => h (hc.2 hv), by simp [runStep, h]⟩)
  case params =>
    have hc := param_iff hnl vs
    by_cases h : converts (algorithmParameter env.digit env.parseFloat) vs = true
    · exact .inr (.inl ⟨nofun, hc.1 h, by simp [runStep, h, runSpace, lastOf_snoc]⟩)
    · exact .inr (.inr ⟨nofun, fun hv => h (hc.2 hv), by simp [runStep, h]⟩)
  case sources =>
    have hc := converts_iff (readInt'_iff env) vs
    by_cases h : converts (readInt' env) vs = true
    · exact .inr (.inl ⟨nofun, hc.1 h, by simp [runStep, h, runSpace, lastOf_snoc]⟩)
    · exact .inr (.inr ⟨nofun, fun hv => h (hc.2 hv), by simp [runStep, h]⟩)
  case vars =>
    have hc := converts_iff (readInt'_iff env) vs
    by_cases h : converts (readInt' env) vs = true
    · exact .inr (.inl ⟨nofun, hc.1 h, by simp [runStep, h, runSpace, lastOf_snoc]⟩)
    · exact .inr (.inr ⟨nofun, fun hv => h (hc.2 hv), by simp [runStep, h]⟩)
  case output =>
    have hc := converts_iff readField_iff vs
    by_cases h : converts readField vs = true
    · exact .inr (.inl ⟨nofun, hc.1 h, by simp [runStep, h, runSpace, lastOf_snoc]⟩)
    · exact .inr (.inr ⟨nofun, fun hv => h (hc.2 hv), by simp [runStep, h]⟩)

theorem run_one {digit : Char → Option Nat} {args : List Text} {acts : List (RunOpt × List Text)}
    (h : Line digit runTable args acts) {vs : List Text} (hv : (RunOpt.dataset, vs) ∈ acts) : ∃ v, vs = [v] := by
  obtain ⟨o, ho, hk, ht⟩ := line_takes h hv
  revert hk ht
  fin_cases ho <;> intro hk ht <;> first | exact ht | cases hk

/-- The actions of a command `run`. -/
theorem run_actions (env : CliEnv X R) (hnl : env.digit '\n' = none) (disk : Disk) {args : List Text}
    {acts : List (RunOpt × List Text)} (h : Line env.digit runTable args acts) :
    (AllGood (fun x => x.1 = .help) (fun _ x => ∀ v ∈ x.2, RunValue env disk x.1 v) acts ∧
      runActions (runStep env disk) (runSpace []) acts = (runSpace acts, none)) ∨
    ∃ pre x post, acts = pre ++ x :: post ∧
      AllGood (fun x => x.1 = .help) (fun _ x => ∀ v ∈ x.2, RunValue env disk x.1 v) pre ∧
      ((x.1 = .help ∧ runActions (runStep env disk) (runSpace []) acts = (runSpace pre, some .help)) ∨
       (¬ x.1 = .help ∧ (¬ ∀ v ∈ x.2, RunValue env disk x.1 v) ∧
        runActions (runStep env disk) (runSpace []) acts = (runSpace pre, some .usage))) :=
  runActions_cases (step := runStep env disk) runSpace
    (Help := fun x => x.1 = .help) (Good := fun _ x => ∀ v ∈ x.2, RunValue env disk x.1 v) acts
    (fun pre x hx => runStep_cases env hnl disk pre x fun e => run_one h (by rw [← e]; exact hx))

/-- No option of `run` before was wrong, and none asked for help. -/
def runGood (env : CliEnv X R) (disk : Disk) (acts : List (RunOpt × List Text)) : Prop :=
  ∀ k vs, (k, vs) ∈ acts → k ≠ .help ∧ ∀ v ∈ vs, RunValue env disk k v

theorem runGood_iff (env : CliEnv X R) (disk : Disk) (acts : List (RunOpt × List Text)) :
    AllGood (fun x => x.1 = .help) (fun _ x => ∀ v ∈ x.2, RunValue env disk x.1 v) acts ↔ runGood env disk acts := by
  constructor
  · intro h k vs hk
    obtain ⟨pre, post, e⟩ := List.append_of_mem hk
    exact h pre _ post e
  · intro h pre x post e
    exact h x.1 x.2 (by simp [e])

theorem run_given (env : CliEnv X R) (disk : Disk) {args : List Text}
    {acts : List (RunOpt × List Text)} (h : Line env.digit runTable args acts) (hg : runGood env disk acts)
    {algs : List Text} {p : Text} (h1 : lastOf .algorithm acts = some algs) (h2 : (lastOf .dataset acts).bind List.head? = some p) :
    RunMeans env disk acts ⟨algs, lastOf .params acts, disk.contents disk.files p, (lastOf .supervised acts).isSome,
      lastOf .sources acts, lastOf .vars acts, lastOf .output acts⟩ where
  noHelp := fun vs hv => (hg _ _ hv).1 rfl
  proper := fun k vs hk => (hg _ _ hk).2
  algorithms := lastGiven_iff.2 h1
  params := lastGiven_iff.2 rfl
  dataset := by
    have hl : LastOne .dataset acts (some p) := (lastOne_iff fun vs => run_one h).2 h2
    refine ⟨p, hl, (contents_iff ?_).1 rfl⟩
    have := (hg .dataset [p] (lastOf_mem (lastGiven_iff.1 hl))).2 p (by simp)
    exact opens_iff.2 this
  supervised := by
    show (lastOf .supervised acts).isSome = true ↔ _
    rw [← Option.ne_none_iff_isSome, Ne, lastOf_none]
    push Not
    rfl
  sources := lastGiven_iff.2 rfl
  vars := lastGiven_iff.2 rfl
  output := lastGiven_iff.2 rfl

/-- A command line that is read as a command `run` with option values `a` does what `run` does
with these values, and changes no file. -/
theorem C86_run (env : CliEnv X R) (hnl : env.digit '\n' = none) (hdot : env.digit '.' = none) (g : Rng (FP R)) (k : Nat)
    (str : Nat → Text) (disk : Disk) (args : List Text) (acts : List (RunOpt × List Text)) (a : RunArgs)
    (h : Line env.digit runTable args acts) (ha : RunMeans env disk acts a) :
    cliMain env g k str disk ("run".toList :: args) =
      ⟨disk.files, (cliRun env a).warnings, runEnd (cliRun env a).result⟩ := by
  rw [main_run]
  unfold runCommand
  rw [(parseLine_iff run_ok hdot _ _).2 h]
  dsimp only
  have hgood : runGood env disk acts := fun k vs hk => ⟨by rintro rfl; exact ha.noHelp _ hk, ha.proper k vs hk⟩
  have hall := (runGood_iff env disk acts).2 hgood
  rcases run_actions env hnl disk h with ⟨-, e⟩ | ⟨pre, x, post, e, -, ⟨hx, -⟩ | ⟨-, hx, -⟩⟩
  · rw [show ({} : RunSpace) = runSpace [] from rfl, e]
    obtain ⟨p, hp, hc⟩ := ha.dataset
    have hp' : (runSpace acts).dataset = some p := (lastOne_iff fun vs => run_one h).1 hp
    have hal : (runSpace acts).algorithms = some a.algorithms := lastGiven_iff.1 ha.algorithms
    have ho : disk.opens disk.files p = true := opens_iff.2 ⟨_, hc⟩
    have he : (⟨a.algorithms, (runSpace acts).params, disk.contents disk.files p, (runSpace acts).supervised,
        (runSpace acts).sources, (runSpace acts).vars, (runSpace acts).output⟩ : RunArgs) = a := by
      have e1 : (runSpace acts).params = a.params := lastGiven_iff.1 ha.params
      have e2 : (runSpace acts).sources = a.sources := lastGiven_iff.1 ha.sources
      have e3 : (runSpace acts).vars = a.vars := lastGiven_iff.1 ha.vars
      have e4 : (runSpace acts).output = a.output := lastGiven_iff.1 ha.output
      have e5 : (runSpace acts).supervised = a.supervised := by
        show (lastOf .supervised acts).isSome = _
        rw [Bool.eq_iff_iff, ha.supervised, ← Option.ne_none_iff_isSome, Ne, lastOf_none]
        push Not
        rfl
      have e6 : disk.contents disk.files p = a.dataset := (contents_iff ho).2 hc
      rw [e1, e2, e3, e4, e5, e6]
    simp only [hp', hal, he]
    rfl
  · exact ((hall pre x post e).1 hx).elim
  · exact (hx (hall pre x post e).2).elim

/-- Every other command line with `run` ends with a usage message or the help text, without
changing a file. -/
theorem C86_run_rejected (env : CliEnv X R) (hnl : env.digit '\n' = none) (hdot : env.digit '.' = none) (g : Rng (FP R))
    (k : Nat) (str : Nat → Text) (disk : Disk) (args : List Text)
    (h : ¬ ∃ acts a, Line env.digit runTable args acts ∧ RunMeans env disk acts a) :
    cliMain env g k str disk ("run".toList :: args) = ⟨disk.files, [], .usage⟩ ∨
    cliMain env g k str disk ("run".toList :: args) = ⟨disk.files, [], .help⟩ := by
  rw [main_run]
  unfold runCommand
  cases hp : parseLine env.digit runTable args with
  | mk acts extras =>
  dsimp only
  cases ha : runActions (runStep env disk) {} acts with
  | mk a s =>
  cases s with
  | some s => cases s <;> simp [Stop.result]
  | none =>
    by_cases he : extras = some []
    · subst he
      have hl := (parseLine_iff run_ok hdot _ _).1 hp
      rcases run_actions env hnl disk hl with ⟨hg, e⟩ | ⟨pre, x, post, e, -, ⟨hx, e'⟩ | ⟨-, hx, e'⟩⟩
      · cases h1 : lastOf .algorithm acts with
        | none =>
          have := ha.symm.trans e
          simp only [Prod.mk.injEq, and_true] at this
          subst this
          have h1' : (runSpace acts).algorithms = none := h1
          simp [h1']
        | some algs =>
          cases h2 : (lastOf .dataset acts).bind List.head? with
          | none =>
            have := ha.symm.trans e
            simp only [Prod.mk.injEq, and_true] at this
            subst this
            have h2' : (runSpace acts).dataset = none := h2
            simp [h2']
          | some p => exact (h ⟨acts, _, hl, run_given env disk hl ((runGood_iff _ _ _).1 hg) h1 h2⟩).elim
      · have := ha.symm.trans e'
        simp at this
      · have := ha.symm.trans e'
        simp at this
    · left
      dsimp only
      split
      · exact (he rfl).elim
      · rfl

/-- The help text of `run` is printed exactly if it is asked for and everything before is in
order. -/
theorem C86_run_help (env : CliEnv X R) (hnl : env.digit '\n' = none) (hdot : env.digit '.' = none) (g : Rng (FP R)) (k : Nat)
    (str : Nat → Text) (disk : Disk) (args : List Text) (acts : List (RunOpt × List Text))
    (h : Line env.digit runTable args acts) :
    (cliMain env g k str disk ("run".toList :: args)).result = .help ↔
      ∃ pre vs post, acts = pre ++ (.help, vs) :: post ∧ ∀ k vs, (k, vs) ∈ pre → ∀ v ∈ vs, RunValue env disk k v := by
  have hne : ∀ c : CliEnd (Dict Text (Dict Field (OutVal Nat Nat X (FP R)))), (runEnd c : MainEnd X R) ≠ .help := by
    intro c; cases c <;> nofun
  rw [main_run]
  unfold runCommand
  rw [(parseLine_iff run_ok hdot _ _).2 h]
  dsimp only
  rw [show ({} : RunSpace) = runSpace [] from rfl]
  rcases run_actions env hnl disk h with ⟨hg, e⟩ | ⟨pre, x, post, e, hg, ⟨hx, e'⟩ | ⟨hn, hx, e'⟩⟩
  · rw [e]
    dsimp only
    refine ⟨fun hc => ?_, ?_⟩
    · split at hc
      · exact (hne _ hc).elim
      · cases hc
    · rintro ⟨pre, vs, post, e, -⟩
      exact ((hg _ _ _ e).1 rfl).elim
  · rw [e']
    refine ⟨fun _ => ⟨pre, x.2, post, by rw [e, ← hx], ?_⟩, fun _ => rfl⟩
    exact fun k vs hk => ((runGood_iff _ _ _).1 hg k vs hk).2
  · rw [e']
    refine ⟨nofun, ?_⟩
    rintro ⟨pre', vs, post', e2, hp⟩
    rw [e] at e2
    rcases List.append_eq_append_iff.1 e2 with ⟨as, h1, h2⟩ | ⟨bs, h1, h2⟩
    · cases as with
      | nil =>
        simp only [List.nil_append, List.cons.injEq] at h2
        exact (hn (by rw [h2.1])).elim
      | cons y as =>
        simp only [List.cons_append, List.cons.injEq] at h2
        rw [← h2.1] at h1
        exact (hx (hp x.1 x.2 (by simp [h1]))).elim
    · cases bs with
      | nil =>
        simp only [List.nil_append, List.cons.injEq] at h2
        exact (hn (by rw [← h2.1])).elim
      | cons y bs =>
        simp only [List.cons_append, List.cons.injEq] at h2
        rw [← h2.1] at h1
        exact (((runGood_iff _ _ _).1 hg .help vs (by simp [h1])).1 rfl).elim

/-! ### `synth` -/

def synthSpace (acts : List (SynthOpt × List Text)) : SynthSpace where
  trust := lastOf .trust acts
  numVars := (lastOf .numVars acts).bind List.head?
  claimProb := (lastOf .claimProb acts).bind List.head?
  domainSize := (lastOf .domainSize acts).bind List.head?

theorem synthStep_cases (env : CliEnv X R) (pre : List (SynthOpt × List Text)) (x : SynthOpt × List Text)
    (hx : x.1 ≠ .help → x.1 ≠ .trust → ∃ v, x.2 = [v]) :
    (x.1 = .help ∧ synthStep env (synthSpace pre) x = .error .help) ∨
    (¬ x.1 = .help ∧ (∀ v ∈ x.2, SynthValue env x.1 v) ∧
      synthStep env (synthSpace pre) x = .ok (synthSpace (pre ++ [x]))) ∨
    (¬ x.1 = .help ∧ (¬ ∀ v ∈ x.2, SynthValue env x.1 v) ∧ synthStep env (synthSpace pre) x = .error .usage) := by
  obtain ⟨k, vs⟩ := x
  cases k
  case help => exact .inl ⟨rfl, rfl⟩
  case trust =>
    have hc := converts_iff (readFloat_iff env) vs
    by_cases h : converts (readFloat env) vs = true
    · exact .inr (.inl ⟨nofun, hc.1 h, by simp [synthStep, h, synthSpace, lastOf_snoc]⟩)
    · exact .inr (.inr ⟨nofun, fun hv => h (hc.2 hv), by simp [synthStep, h]⟩)
  case numVars =>
    obtain ⟨v, hv⟩ := hx nofun nofun
    simp only at hv
    subst hv
    have hc := converts_iff (readInt'_iff env) [v]
    by_cases h : converts (readInt' env) [v] = true
    · exact .inr (.inl ⟨nofun, hc.1 h, by simp [synthStep, h, synthSpace, lastOf_snoc]⟩)
    · exact .inr (.inr ⟨nofun, fun hv => h (hc.2 hv), by simp [synthStep, h]⟩)
  case claimProb =>
    obtain ⟨v, hv⟩ := hx nofun nofun
    simp only at hv
    subst hv
    have hc := converts_iff (readFloat_iff env) [v]
    by_cases h : converts (readFloat env) [v] = true
    · exact .inr (.inl ⟨nofun, hc.1 h, by simp [synthStep, h, synthSpace, lastOf_snoc]⟩)
    · exact .inr (.inr ⟨nofun, fun hv => h (hc.2 hv), by simp [synthStep, h]⟩)
  case domainSize =>
    obtain ⟨v, hv⟩ := hx nofun nofun
    simp only at hv
    subst hv
    have hc := converts_iff (readInt'_iff env) [v]
    by_cases h : converts (readInt' env) [v] = true
    · exact .inr (.inl ⟨nofun, hc.1 h, by simp [synthStep, h, synthSpace, lastOf_snoc]⟩)
    · exact .inr (.inr ⟨nofun, fun hv => h (hc.2 hv), by simp [synthStep, h]⟩)

theorem synth_one {digit : Char → Option Nat} {args : List Text} {acts : List (SynthOpt × List Text)}
    (h : Line digit synthTable args acts) {k : SynthOpt} (h1 : k ≠ .help) (h2 : k ≠ .trust) {vs : List Text}
    (hv : (k, vs) ∈ acts) : ∃ v, vs = [v] := by
  obtain ⟨o, ho, hk, ht⟩ := line_takes h hv
  revert hk ht
  fin_cases ho <;> intro hk ht <;> first | exact ht | (subst hk; exact (h1 rfl).elim) | (subst hk; exact (h2 rfl).elim)

theorem synth_actions (env : CliEnv X R) {args : List Text}
    {acts : List (SynthOpt × List Text)} (h : Line env.digit synthTable args acts) :
    (AllGood (fun x => x.1 = .help) (fun _ x => ∀ v ∈ x.2, SynthValue env x.1 v) acts ∧
      runActions (synthStep env) (synthSpace []) acts = (synthSpace acts, none)) ∨
    ∃ pre x post, acts = pre ++ x :: post ∧
      AllGood (fun x => x.1 = .help) (fun _ x => ∀ v ∈ x.2, SynthValue env x.1 v) pre ∧
      ((x.1 = .help ∧ runActions (synthStep env) (synthSpace []) acts = (synthSpace pre, some .help)) ∨
       (¬ x.1 = .help ∧ (¬ ∀ v ∈ x.2, SynthValue env x.1 v) ∧
        runActions (synthStep env) (synthSpace []) acts = (synthSpace pre, some .usage))) :=
  runActions_cases (step := synthStep env) synthSpace
    (Help := fun x => x.1 = .help) (Good := fun _ x => ∀ v ∈ x.2, SynthValue env x.1 v) acts
    (fun pre x hx => synthStep_cases env pre x fun e1 e2 => synth_one h e1 e2 hx)

theorem synth_given (env : CliEnv X R) {args : List Text}
    {acts : List (SynthOpt × List Text)} (h : Line env.digit synthTable args acts)
    (hg : AllGood (fun x => x.1 = .help) (fun _ x => ∀ v ∈ x.2, SynthValue env x.1 v) acts)
    {trust : List Text} (h1 : lastOf .trust acts = some trust) :
    SynthGiven env acts ⟨trust, (synthSpace acts).numVars, (synthSpace acts).claimProb, (synthSpace acts).domainSize⟩ where
  noHelp := fun vs hv => by
    obtain ⟨pre, post, e⟩ := List.append_of_mem hv
    exact (hg _ _ _ e).1 rfl
  proper := fun k vs hk => by
    obtain ⟨pre, post, e⟩ := List.append_of_mem hk
    exact (hg _ _ _ e).2
  trust := lastGiven_iff.2 h1
  numVars := (lastOne_iff (k := SynthOpt.numVars) fun _ => synth_one h (by decide) (by decide)).2 rfl
  claimProb := (lastOne_iff (k := SynthOpt.claimProb) fun _ => synth_one h (by decide) (by decide)).2 rfl
  domainSize := (lastOne_iff (k := SynthOpt.domainSize) fun _ => synth_one h (by decide) (by decide)).2 rfl

/-- A command line that is read as a command `synth` with option values `o` does what `synth`
does with these values, and changes no file. -/
theorem C86_synth (env : CliEnv X R) (hdot : env.digit '.' = none) (g : Rng (FP R)) (k : Nat)
    (str : Nat → Text) (disk : Disk) (args : List Text) (acts : List (SynthOpt × List Text)) (o : SynthOptions)
    (h : Line env.digit synthTable args acts) (ho : SynthGiven env acts o) :
    cliMain env g k str disk ("synth".toList :: args) = ⟨disk.files, [], synthEnd (cliSynth env g k str o)⟩ := by
  rw [main_synth]
  unfold synthCommand
  rw [(parseLine_iff synth_ok hdot _ _).2 h]
  dsimp only
  have hall : AllGood (fun x => x.1 = .help) (fun _ x => ∀ v ∈ x.2, SynthValue env x.1 v) acts := by
    intro pre x post e
    refine ⟨fun hx => ?_, ho.proper x.1 x.2 (by simp [e])⟩
    exact ho.noHelp x.2 (by rw [← hx]; simp [e])
  rcases synth_actions env h with ⟨-, e⟩ | ⟨pre, x, post, e, -, ⟨hx, -⟩ | ⟨-, hx, -⟩⟩
  · rw [show ({} : SynthSpace) = synthSpace [] from rfl, e]
    have h1 : (synthSpace acts).trust = some o.trust := lastGiven_iff.1 ho.trust
    have h2 : (synthSpace acts).numVars = o.numVars := (lastOne_iff (k := SynthOpt.numVars) fun _ => synth_one h (by decide) (by decide)).1 ho.numVars
    have h3 : (synthSpace acts).claimProb = o.claimProb :=
      (lastOne_iff (k := SynthOpt.claimProb) fun _ => synth_one h (by decide) (by decide)).1 ho.claimProb
    have h4 : (synthSpace acts).domainSize = o.domainSize :=
      (lastOne_iff (k := SynthOpt.domainSize) fun _ => synth_one h (by decide) (by decide)).1 ho.domainSize
    simp only [h1, h2, h3, h4]
    rfl
  · exact ((hall pre x post e).1 hx).elim
  · exact (hx (hall pre x post e).2).elim

/-- Every other command line with `synth` ends with a usage message or the help text, without
changing a file. -/
theorem C86_synth_rejected (env : CliEnv X R) (hdot : env.digit '.' = none) (g : Rng (FP R))
    (k : Nat) (str : Nat → Text) (disk : Disk) (args : List Text)
    (h : ¬ ∃ acts o, Line env.digit synthTable args acts ∧ SynthGiven env acts o) :
    cliMain env g k str disk ("synth".toList :: args) = ⟨disk.files, [], .usage⟩ ∨
    cliMain env g k str disk ("synth".toList :: args) = ⟨disk.files, [], .help⟩ := by
  rw [main_synth]
  unfold synthCommand
  cases hp : parseLine env.digit synthTable args with
  | mk acts extras =>
  dsimp only
  cases ha : runActions (synthStep env) {} acts with
  | mk a s =>
  cases s with
  | some s => cases s <;> simp [Stop.result]
  | none =>
    by_cases he : extras = some []
    · subst he
      have hl := (parseLine_iff synth_ok hdot _ _).1 hp
      rcases synth_actions env hl with ⟨hg, e⟩ | ⟨pre, x, post, e, -, ⟨hx, e'⟩ | ⟨-, hx, e'⟩⟩
      · cases h1 : lastOf .trust acts with
        | none =>
          have := ha.symm.trans e
          simp only [Prod.mk.injEq, and_true] at this
          subst this
          have h1' : (synthSpace acts).trust = none := h1
          simp [h1']
        | some trust => exact (h ⟨acts, _, hl, synth_given env hl hg h1⟩).elim
      · have := ha.symm.trans e'
        simp at this
      · have := ha.symm.trans e'
        simp at this
    · left
      dsimp only
      split
      · exact (he rfl).elim
      · rfl

/-! ### `graph` -/

open Classical in
noncomputable def graphFiles (disk : Disk) (acts : List (GraphOpt × List Text)) (p : Text) : Option Text :=
  if Emptied acts p then some [] else disk.files p

theorem graphFiles_pos {disk : Disk} {acts : List (GraphOpt × List Text)} {p : Text} (h : Emptied acts p) :
    graphFiles disk acts p = some [] := if_pos h

theorem graphFiles_neg {disk : Disk} {acts : List (GraphOpt × List Text)} {p : Text} (h : ¬ Emptied acts p) :
    graphFiles disk acts p = disk.files p := if_neg h

theorem graphFiles_congr {disk : Disk} {acts acts' : List (GraphOpt × List Text)} {p : Text}
    (h : Emptied acts p ↔ Emptied acts' p) : graphFiles disk acts p = graphFiles disk acts' p := by
  by_cases hp : Emptied acts p
  · rw [graphFiles_pos hp, graphFiles_pos (h.1 hp)]
  · rw [graphFiles_neg hp, graphFiles_neg (mt h.2 hp)]

theorem filesAfter (disk : Disk) (acts : List (GraphOpt × List Text)) : FilesAfter disk acts (graphFiles disk acts) := by
  intro p
  by_cases hp : Emptied acts p
  · exact .inl ⟨hp, graphFiles_pos hp⟩
  · exact .inr ⟨hp, graphFiles_neg hp⟩

theorem filesAfter_unique {disk : Disk} {acts : List (GraphOpt × List Text)} {files : Text → Option Text}
    (h : FilesAfter disk acts files) : files = graphFiles disk acts := by
  funext p
  rcases h p with ⟨hp, e⟩ | ⟨hp, e⟩
  · rw [e, graphFiles_pos hp]
  · rw [e, graphFiles_neg hp]

noncomputable def graphSpace (disk : Disk) (acts : List (GraphOpt × List Text)) : GraphSpace where
  files := graphFiles disk acts
  dataset := (lastOf .dataset acts).bind List.head?
  outfile := (lastOf .outfile acts).bind List.head?
  width := (lastOf .width acts).bind List.head?
  nodeRadius := (lastOf .nodeRadius acts).bind List.head?
  spacing := (lastOf .spacing acts).bind List.head?
  fontSize := (lastOf .fontSize acts).bind List.head?
  lineWidth := (lastOf .lineWidth acts).bind List.head?
  nodeBorderWidth := (lastOf .nodeBorderWidth acts).bind List.head?
  oneIndexed := (lastOf .oneIndexed acts).isSome

theorem graphSpace_nil (disk : Disk) : ({ files := disk.files } : GraphSpace) = graphSpace disk [] := by
  have : graphFiles disk [] = disk.files := funext fun p => graphFiles_neg (by simp [Emptied])
  simp [graphSpace, this, lastOf_nil]

theorem emptied_snoc {acts : List (GraphOpt × List Text)} {k : GraphOpt} {vs : List Text} {p : Text} :
    Emptied (acts ++ [(k, vs)]) p ↔ Emptied acts p ∨ (p ≠ ['-'] ∧ k = .outfile ∧ vs = [p]) := by
  unfold Emptied
  simp only [List.mem_append, List.mem_singleton, Prod.mk.injEq]
  constructor
  · rintro ⟨h, h' | ⟨h1, h2⟩⟩
    · exact .inl ⟨h, h'⟩
    · exact .inr ⟨h, h1.symm, h2.symm⟩
  · rintro (⟨h, h'⟩ | ⟨h, h1, h2⟩)
    · exact ⟨h, .inl h'⟩
    · exact ⟨h, .inr ⟨h1.symm, h2.symm⟩⟩

theorem files_snoc (disk : Disk) (acts : List (GraphOpt × List Text)) {k : GraphOpt} (vs : List Text) (h : k ≠ .outfile) :
    graphFiles disk (acts ++ [(k, vs)]) = graphFiles disk acts :=
  funext fun p => graphFiles_congr (by simp [emptied_snoc, h])

theorem files_out (disk : Disk) (acts : List (GraphOpt × List Text)) {p : Text} (h : disk.writable p = true ∨ p = ['-']) :
    disk.create (graphFiles disk acts) p = some (graphFiles disk (acts ++ [(.outfile, [p])])) := by
  unfold Disk.create
  by_cases hp : p = ['-']
  · refine (if_pos hp).trans ?_
    congr 1
    funext q
    refine graphFiles_congr ?_
    rw [emptied_snoc]
    constructor
    · exact .inl
    · rintro (h | ⟨h1, -, h2⟩)
      · exact h
      · cases h2
        exact (h1 hp).elim
  · refine (if_neg hp).trans ((if_pos (h.resolve_right hp)).trans ?_)
    congr 1
    funext q
    by_cases hq : q = p
    · subst hq
      exact (if_pos rfl).trans (graphFiles_pos (emptied_snoc.2 (.inr ⟨hp, rfl, rfl⟩))).symm
    · refine (if_neg hq).trans (graphFiles_congr ?_)
      rw [emptied_snoc]
      constructor
      · exact .inl
      · rintro (h | ⟨h1, -, h2⟩)
        · exact h
        · cases h2
          exact (hq rfl).elim

theorem graph_opens (disk : Disk) (acts : List (GraphOpt × List Text)) (p : Text) :
    disk.opens (graphFiles disk acts) p = true ↔
      (p = ['-'] ∨ (disk.readable p = true ∧ (Emptied acts p ∨ ∃ t, disk.files p = some t))) := by
  unfold Disk.opens
  by_cases h : Emptied acts p
  · rw [graphFiles_pos h]
    simp [h]
  · rw [graphFiles_neg h]
    cases hf : disk.files p <;> simp [h]

theorem graphStep_cases (env : CliEnv X R) (disk : Disk) (pre : List (GraphOpt × List Text)) (x : GraphOpt × List Text)
    (hx : x.1 ≠ .help → x.1 ≠ .oneIndexed → ∃ v, x.2 = [v]) :
    (x.1 = .help ∧ graphStep env disk (graphSpace disk pre) x = .error .help) ∨
    (¬ x.1 = .help ∧ (∀ v ∈ x.2, GraphValue env disk pre x.1 v) ∧
      graphStep env disk (graphSpace disk pre) x = .ok (graphSpace disk (pre ++ [x]))) ∨
    (¬ x.1 = .help ∧ (¬ ∀ v ∈ x.2, GraphValue env disk pre x.1 v) ∧
      graphStep env disk (graphSpace disk pre) x = .error .usage) := by
  obtain ⟨k, vs⟩ := x
  have hf := fun k hk => files_snoc disk pre (k := k) vs hk
  cases k
  case help => exact .inl ⟨rfl, rfl⟩
  case oneIndexed =>
    refine .inr (.inl ⟨nofun, fun _ _ => trivial, ?_⟩)
    simp [graphStep, graphSpace, lastOf_snoc, hf]
  all_goals
    obtain ⟨v, hv⟩ := hx nofun nofun
    simp only at hv
    subst hv
  case dataset =>
    have ho := graph_opens disk pre v
    by_cases h : disk.opens (graphFiles disk pre) v = true
    · refine .inr (.inl ⟨nofun, ?_, ?_⟩)
      · intro w hw
        rw [List.mem_singleton] at hw
        subst hw
        exact ho.1 h
      · simp [graphStep, graphSpace, h, lastOf_snoc, hf]
    · refine .inr (.inr ⟨nofun, fun hv => h (ho.2 (hv v (by simp))), ?_⟩)
      simp [graphStep, graphSpace, h]
  case outfile =>
    by_cases h : disk.writable v = true ∨ v = ['-']
    · have hf := files_out disk pre h
      refine .inr (.inl ⟨nofun, ?_, ?_⟩)
      · intro w hw
        rw [List.mem_singleton] at hw
        subst hw
        exact h.symm
      · simp [graphStep, graphSpace, hf, lastOf_snoc]
    · have hn : disk.create (graphSpace disk pre).files v = none := by
        unfold Disk.create
        exact (if_neg fun e => h (.inr e)).trans (if_neg fun e => h (.inl e))
      refine .inr (.inr ⟨nofun, fun hv => h (Or.symm (hv v (by simp))), ?_⟩)
      simp only [graphStep, hn]
  all_goals
    have hc := converts_iff (readInt'_iff env) [v]
    by_cases h : converts (readInt' env) [v] = true
    · exact .inr (.inl ⟨nofun, hc.1 h, by simp [graphStep, graphSpace, h, lastOf_snoc, hf]⟩)
    · exact .inr (.inr ⟨nofun, fun hv => h (hc.2 hv), by simp [graphStep, h]⟩)

theorem graph_one {digit : Char → Option Nat} {args : List Text} {acts : List (GraphOpt × List Text)}
    (h : Line digit graphTable args acts) {k : GraphOpt} (h1 : k ≠ .help) (h2 : k ≠ .oneIndexed) {vs : List Text}
    (hv : (k, vs) ∈ acts) : ∃ v, vs = [v] := by
  obtain ⟨o, ho, hk, ht⟩ := line_takes h hv
  revert hk ht
  fin_cases ho <;> intro hk ht <;> first | exact ht | (subst hk; exact (h1 rfl).elim) | (subst hk; exact (h2 rfl).elim)

theorem graph_actions (env : CliEnv X R) (disk : Disk) {args : List Text}
    {acts : List (GraphOpt × List Text)} (h : Line env.digit graphTable args acts) :
    (AllGood (fun x => x.1 = .help) (fun pre x => ∀ v ∈ x.2, GraphValue env disk pre x.1 v) acts ∧
      runActions (graphStep env disk) { files := disk.files } acts = (graphSpace disk acts, none)) ∨
    ∃ pre x post, acts = pre ++ x :: post ∧
      AllGood (fun x => x.1 = .help) (fun pre x => ∀ v ∈ x.2, GraphValue env disk pre x.1 v) pre ∧
      ((x.1 = .help ∧ runActions (graphStep env disk) { files := disk.files } acts = (graphSpace disk pre, some .help)) ∨
       (¬ x.1 = .help ∧ (¬ ∀ v ∈ x.2, GraphValue env disk pre x.1 v) ∧
        runActions (graphStep env disk) { files := disk.files } acts = (graphSpace disk pre, some .usage))) := by
  rw [graphSpace_nil]
  exact runActions_cases (step := graphStep env disk) (graphSpace disk)
    (Help := fun x => x.1 = .help) (Good := fun pre x => ∀ v ∈ x.2, GraphValue env disk pre x.1 v) acts
    (fun pre x hx => graphStep_cases env disk pre x fun e1 e2 => graph_one h e1 e2 hx)

theorem graph_contents (env : CliEnv X R) (disk : Disk) {acts : List (GraphOpt × List Text)}
    (hp : ∀ pre k vs post, acts = pre ++ (k, vs) :: post → ∀ v ∈ vs, GraphValue env disk pre k v) {p t : Text}
    (hl : LastOne .dataset acts (some p)) :
    disk.contents (graphFiles disk acts) p = t ↔
      ((p = ['-'] ∧ t = disk.stdin) ∨ (Emptied acts p ∧ t = []) ∨
       (p ≠ ['-'] ∧ ¬ Emptied acts p ∧ disk.files p = some t)) := by
  have hok : ∃ pre, GraphValue env disk pre .dataset p ∧ (Emptied pre p → Emptied acts p) := by
    obtain ⟨pre, post, e⟩ := List.append_of_mem (lastOf_mem (lastGiven_iff.1 hl))
    refine ⟨pre, hp pre _ _ post e p (by simp), fun h => ⟨h.1, ?_⟩⟩
    rw [e]
    exact List.mem_append_left _ h.2
  unfold Disk.contents
  by_cases h1 : p = ['-']
  · have h2 : ¬ Emptied acts p := fun h => h.1 h1
    rw [if_pos h1]
    constructor
    · rintro rfl
      exact .inl ⟨h1, rfl⟩
    · rintro (⟨-, h⟩ | ⟨h, -⟩ | ⟨h, -⟩)
      · exact h.symm
      · exact (h2 h).elim
      · exact (h h1).elim
  · rw [if_neg h1]
    by_cases h2 : Emptied acts p
    · rw [graphFiles_pos h2]
      constructor
      · rintro rfl
        exact .inr (.inl ⟨h2, rfl⟩)
      · rintro (⟨h, -⟩ | ⟨-, h⟩ | ⟨-, h, -⟩)
        · exact (h1 h).elim
        · exact h.symm
        · exact (h h2).elim
    · rw [graphFiles_neg h2]
      obtain ⟨pre, hv, he⟩ := hok
      rcases hv with hv | ⟨-, hv | ⟨t', ht'⟩⟩
      · exact (h1 hv).elim
      · exact (h2 (he hv)).elim
      · rw [ht']
        constructor
        · rintro rfl
          exact .inr (.inr ⟨h1, h2, rfl⟩)
        · rintro (⟨h, -⟩ | ⟨h, -⟩ | ⟨-, -, h⟩)
          · exact (h1 h).elim
          · exact (h2 h).elim
          · cases h; rfl

theorem graph_given (env : CliEnv X R) (disk : Disk) {args : List Text}
    {acts : List (GraphOpt × List Text)} (h : Line env.digit graphTable args acts)
    (hg : AllGood (fun x => x.1 = .help) (fun pre x => ∀ v ∈ x.2, GraphValue env disk pre x.1 v) acts)
    {p out : Text} (h1 : (graphSpace disk acts).dataset = some p) (h2 : (graphSpace disk acts).outfile = some out) :
    GraphGiven env disk acts ⟨disk.contents (graphFiles disk acts) p, (graphSpace disk acts).width,
      (graphSpace disk acts).nodeRadius, (graphSpace disk acts).spacing, (graphSpace disk acts).fontSize,
      (graphSpace disk acts).lineWidth, (graphSpace disk acts).nodeBorderWidth, (graphSpace disk acts).oneIndexed⟩ out := by
  have hp : ∀ pre k vs post, acts = pre ++ (k, vs) :: post → ∀ v ∈ vs, GraphValue env disk pre k v :=
    fun pre k vs post e => (hg _ _ _ e).2
  have hone : ∀ {k v}, k ≠ .help → k ≠ .oneIndexed → (lastOf k acts).bind List.head? = v → LastOne k acts v :=
    fun h1 h2 hv => (lastOne_iff fun _ => graph_one h h1 h2).2 hv
  have hd : LastOne .dataset acts (some p) := hone nofun nofun h1
  exact
  { noHelp := fun vs hv => by
      obtain ⟨pre, post, e⟩ := List.append_of_mem hv
      exact (hg _ _ _ e).1 rfl
    proper := hp
    dataset := ⟨p, hd, (graph_contents env disk hp hd).1 rfl⟩
    outfile := hone nofun nofun h2
    width := hone (k := .width) nofun nofun rfl
    nodeRadius := hone (k := .nodeRadius) nofun nofun rfl
    spacing := hone (k := .spacing) nofun nofun rfl
    fontSize := hone (k := .fontSize) nofun nofun rfl
    lineWidth := hone (k := .lineWidth) nofun nofun rfl
    nodeBorderWidth := hone (k := .nodeBorderWidth) nofun nofun rfl
    oneIndexed := by
      show (lastOf .oneIndexed acts).isSome = true ↔ _
      rw [← Option.ne_none_iff_isSome, Ne, lastOf_none]
      push Not
      rfl }

/-- A command line that is read as a command `graph` with option values `o` and output file
`out` does what `graph` does with these values; files that were named as output files are
emptied, or created, even if the command fails then. -/
theorem C86_graph (env : CliEnv X R) (hdot : env.digit '.' = none) (g : Rng (FP R)) (k : Nat)
    (str : Nat → Text) (disk : Disk) (args : List Text) (acts : List (GraphOpt × List Text)) (o : GraphOptions)
    (out : Text) (h : Line env.digit graphTable args acts) (ho : GraphGiven env disk acts o out) :
    ∃ files, FilesAfter disk acts files ∧
      cliMain env g k str disk ("graph".toList :: args) = ⟨files, [], graphEnd out (cliGraph env o)⟩ := by
  refine ⟨graphFiles disk acts, filesAfter disk acts, ?_⟩
  rw [main_graph]
  unfold graphCommand
  rw [(parseLine_iff graph_ok' hdot _ _).2 h]
  dsimp only
  have hall : AllGood (fun x => x.1 = .help) (fun pre x => ∀ v ∈ x.2, GraphValue env disk pre x.1 v) acts := by
    intro pre x post e
    refine ⟨fun hx => ?_, ho.proper pre x.1 x.2 post e⟩
    exact ho.noHelp x.2 (by rw [← hx]; simp [e])
  rcases graph_actions env disk h with ⟨-, e⟩ | ⟨pre, x, post, e, -, ⟨hx, -⟩ | ⟨-, hx, -⟩⟩
  · rw [e]
    have hone : ∀ {k v}, k ≠ .help → k ≠ .oneIndexed → LastOne k acts v → (lastOf k acts).bind List.head? = v :=
      fun h1 h2 hv => (lastOne_iff fun _ => graph_one h h1 h2).1 hv
    obtain ⟨p, hd, hc⟩ := ho.dataset
    have e1 : (graphSpace disk acts).dataset = some p := hone nofun nofun hd
    have e2 : (graphSpace disk acts).outfile = some out := hone nofun nofun ho.outfile
    have e3 : (graphSpace disk acts).width = o.width := hone nofun nofun ho.width
    have e4 : (graphSpace disk acts).nodeRadius = o.nodeRadius := hone nofun nofun ho.nodeRadius
    have e5 : (graphSpace disk acts).spacing = o.spacing := hone nofun nofun ho.spacing
    have e6 : (graphSpace disk acts).fontSize = o.fontSize := hone nofun nofun ho.fontSize
    have e7 : (graphSpace disk acts).lineWidth = o.lineWidth := hone nofun nofun ho.lineWidth
    have e8 : (graphSpace disk acts).nodeBorderWidth = o.nodeBorderWidth := hone nofun nofun ho.nodeBorderWidth
    have e9 : (graphSpace disk acts).oneIndexed = o.oneIndexed := by
      show (lastOf .oneIndexed acts).isSome = _
      rw [Bool.eq_iff_iff, ho.oneIndexed, ← Option.ne_none_iff_isSome, Ne, lastOf_none]
      push Not
      rfl
    have e10 : disk.contents (graphSpace disk acts).files p = o.dataset :=
      (graph_contents env disk ho.proper hd).2 hc
    simp only [e1, e2, e3, e4, e5, e6, e7, e8, e9, e10]
    rfl
  · exact ((hall pre x post e).1 hx).elim
  · exact (hx (hall pre x post e).2).elim

/-- Every other command line with `graph` ends with a usage message or the help text. -/
theorem C86_graph_rejected (env : CliEnv X R) (hdot : env.digit '.' = none) (g : Rng (FP R))
    (k : Nat) (str : Nat → Text) (disk : Disk) (args : List Text)
    (h : ¬ ∃ acts o out, Line env.digit graphTable args acts ∧ GraphGiven env disk acts o out) :
    ∃ files, cliMain env g k str disk ("graph".toList :: args) = ⟨files, [], .usage⟩ ∨
      cliMain env g k str disk ("graph".toList :: args) = ⟨files, [], .help⟩ := by
  rw [main_graph]
  unfold graphCommand
  cases hp : parseLine env.digit graphTable args with
  | mk acts extras =>
  dsimp only
  cases ha : runActions (graphStep env disk) { files := disk.files } acts with
  | mk a s =>
  refine ⟨a.files, ?_⟩
  cases s with
  | some s => cases s <;> simp [Stop.result]
  | none =>
    by_cases he : extras = some []
    · subst he
      have hl := (parseLine_iff graph_ok' hdot _ _).1 hp
      rcases graph_actions env disk hl with ⟨hg, e⟩ | ⟨pre, x, post, e, -, ⟨hx, e'⟩ | ⟨-, hx, e'⟩⟩
      · have := ha.symm.trans e
        simp only [Prod.mk.injEq, and_true] at this
        subst this
        cases h1 : (graphSpace disk acts).dataset with
        | none => simp [h1]
        | some p =>
          cases h2 : (graphSpace disk acts).outfile with
          | none => simp [h2]
          | some out => exact (h ⟨acts, _, out, hl, graph_given env disk hl hg h1 h2⟩).elim
      · have := ha.symm.trans e'
        simp at this
      · have := ha.symm.trans e'
        simp at this
    · left
      dsimp only
      split
      · exact (he rfl).elim
      · rfl

/-- What is printed by `graph -h`. -/
theorem C86_graph_help (env : CliEnv X R) (hdot : env.digit '.' = none) (g : Rng (FP R)) (k : Nat)
    (str : Nat → Text) (disk : Disk) (args : List Text) (acts : List (GraphOpt × List Text))
    (h : Line env.digit graphTable args acts) :
    (cliMain env g k str disk ("graph".toList :: args)).result = .help ↔
      ∃ pre vs post, acts = pre ++ (.help, vs) :: post ∧
        ∀ pre' k vs post', pre = pre' ++ (k, vs) :: post' → ∀ v ∈ vs, GraphValue env disk pre' k v := by
  have hne : ∀ (out : Text) (c : CliEnd Frame), (graphEnd out c : MainEnd X R) ≠ .help := by
    intro out c; cases c <;> nofun
  rw [main_graph]
  unfold graphCommand
  rw [(parseLine_iff graph_ok' hdot _ _).2 h]
  dsimp only
  rcases graph_actions env disk h with ⟨hg, e⟩ | ⟨pre, x, post, e, hg, ⟨hx, e'⟩ | ⟨hn, hx, e'⟩⟩
  · rw [e]
    dsimp only
    refine ⟨fun hc => ?_, ?_⟩
    · split at hc
      · exact (hne _ _ hc).elim
      · cases hc
    · rintro ⟨pre, vs, post, e, -⟩
      exact ((hg _ _ _ e).1 rfl).elim
  · rw [e']
    refine ⟨fun _ => ⟨pre, x.2, post, by rw [e, ← hx], ?_⟩, fun _ => rfl⟩
    exact fun pre' k vs post' e => (hg _ _ _ e).2
  · rw [e']
    refine ⟨nofun, ?_⟩
    rintro ⟨pre', vs, post', e2, hp⟩
    rw [e] at e2
    rcases List.append_eq_append_iff.1 e2 with ⟨as, h1, h2⟩ | ⟨bs, h1, h2⟩
    · cases as with
      | nil =>
        simp only [List.nil_append, List.cons.injEq] at h2
        exact (hn (by rw [h2.1])).elim
      | cons y as =>
        simp only [List.cons_append, List.cons.injEq] at h2
        rw [← h2.1] at h1
        exact (hx (hp pre x.1 x.2 as h1)).elim
    · cases bs with
      | nil =>
        simp only [List.nil_append, List.cons.injEq] at h2
        exact (hn (by rw [← h2.1])).elim
      | cons y bs =>
        simp only [List.cons_append, List.cons.injEq] at h2
        rw [← h2.1] at h1
        exact ((hg pre' _ bs h1).1 rfl).elim

/-! ### `httpd`, options before the command -/

/-- `httpd` without further words starts the server. -/
theorem C86_httpd (env : CliEnv X R) (g : Rng (FP R)) (k : Nat) (str : Nat → Text) (disk : Disk) :
    cliMain env g k str disk ["httpd".toList] = ⟨disk.files, [], .server⟩ := by
  rw [main_httpd]
  rfl

/-- With further words it does not. -/
theorem C86_httpd_rejected (env : CliEnv X R) (hdot : env.digit '.' = none) (g : Rng (FP R)) (k : Nat) (str : Nat → Text)
    (disk : Disk) (args : List Text) (h : args ≠ []) :
    cliMain env g k str disk ("httpd".toList :: args) = ⟨disk.files, [], .usage⟩ ∨
    cliMain env g k str disk ("httpd".toList :: args) = ⟨disk.files, [], .help⟩ := by
  rw [main_httpd]
  unfold httpdCommand
  cases hp : parseLine env.digit helpTable args with
  | mk acts extras =>
  dsimp only
  cases acts with
  | cons x xs => exact .inr rfl
  | nil =>
    left
    have : extras ≠ some [] := by
      rintro rfl
      have hl := (parseLine_iff help_ok hdot _ _).1 hp
      generalize ha : ([] : List (Unit × List Text)) = acts at hl
      cases hl with
      | nil => exact h rfl
      | cons w vs ws acts acts' ho =>
        obtain ⟨rfl, -⟩ := List.append_eq_nil_iff.1 ha.symm
        cases ho
    simp [this]

theorem parseOptional_arg {κ : Type} {digit : Char → Option Nat} {T : List (Opt κ)} {w t : Text} (hT : TableOk T)
    (hdot : digit '.' = none) (h : parseOptional digit T w = some (.arg t)) : t = w := by
  rcases parseOptional_cases hT hdot w with ⟨t', h', hr⟩ | ⟨h', -⟩ | ⟨h', -⟩ | ⟨h', -⟩ <;> rw [h] at h' <;> cases h'
  · cases hr
  · rfl

theorem topLoop_step (digit : Char → Option Nat) (extra : Bool) (w : Text) (ws : List Text) (hw : w ≠ ['-', '-']) :
    topLoop digit extra (w :: ws) = (match parseOptional digit helpTable w with
        | some (.arg t) => .command extra t ws
        | some (.unknown _) => topLoop digit true ws
        | some (.opt o name eq explicit) =>
          match consumeOptional helpTable [] o name eq explicit with
          | some _ => .stop .help
          | none => .stop .usage
        | _ => .stop .usage) := if_neg hw

theorem topLoop_cases (digit : Char → Option Nat) (hdot : digit '.' = none) (args : List Text) : ∀ extra : Bool,
    (∃ s, topLoop digit extra args = .stop s) ∨
    ∃ pre name rest extra', args = pre ++ name :: rest ∧ topLoop digit extra args = .command extra' name rest ∧
      (extra = true → extra' = true) ∧ (pre ≠ [] → extra' = true) := by
  induction args with
  | nil => exact fun _ => .inl ⟨_, rfl⟩
  | cons w ws ih =>
    intro extra
    by_cases hw : w = ['-', '-']
    · exact .inl ⟨_, if_pos hw⟩
    · rw [topLoop_step _ _ _ _ hw]
      split
      · rename_i t ht
        have := parseOptional_arg help_ok hdot ht
        subst this
        exact .inr ⟨[], t, ws, extra, rfl, rfl, id, nofun⟩
      · rcases ih true with ⟨s, hs⟩ | ⟨pre, name, rest, extra', rfl, hs, he, -⟩
        · exact .inl ⟨s, hs⟩
        · exact .inr ⟨w :: pre, name, rest, extra', rfl, hs, fun _ => he rfl, fun _ => he rfl⟩
      · split
        · exact .inl ⟨_, rfl⟩
        · exact .inl ⟨_, rfl⟩
      · exact .inl ⟨_, rfl⟩

/-- The end of a program that only prints the help text or a usage message. -/
def Stopped (o : MainOutcome X R) : Prop := o.warnings = [] ∧ (o.result = .usage ∨ o.result = .help)

theorem stopped_stop (files : Text → Option Text) (s : Stop) : Stopped (⟨files, [], s.result⟩ : MainOutcome X R) := by
  cases s
  · exact ⟨rfl, .inr rfl⟩
  · exact ⟨rfl, .inl rfl⟩

theorem extra_stopped (env : CliEnv X R) (g : Rng (FP R)) (k : Nat) (str : Nat → Text) (disk : Disk) (args : List Text) :
    Stopped (runCommand env disk true args) ∧ Stopped (synthCommand env g k str disk true args) ∧
    Stopped (graphCommand env disk true args) ∧
    Stopped (httpdCommand env.digit disk true args : MainOutcome X R) := by
  refine ⟨?_, ?_, ?_, ?_⟩
  · unfold runCommand
    dsimp only
    split
    · exact stopped_stop _ _
    · split
      · exact ⟨rfl, .inl rfl⟩
      · exact ⟨rfl, .inl rfl⟩
  · unfold synthCommand
    dsimp only
    split
    · exact stopped_stop _ _
    · split
      · exact ⟨rfl, .inl rfl⟩
      · exact ⟨rfl, .inl rfl⟩
  · unfold graphCommand
    dsimp only
    split
    · exact stopped_stop _ _
    · split
      · exact ⟨rfl, .inl rfl⟩
      · exact ⟨rfl, .inl rfl⟩
  · unfold httpdCommand
    dsimp only
    split
    · exact ⟨rfl, .inr rfl⟩
    · exact ⟨rfl, .inl (by simp)⟩

/-- Options cannot come before the command: if the first word begins with `-`, only a usage
message or the help text is printed. -/
theorem C86_option_first (env : CliEnv X R) (hdot : env.digit '.' = none) (g : Rng (FP R)) (k : Nat) (str : Nat → Text)
    (disk : Disk) (w : Text) (ws : List Text) (hw : w.head? = some '-') :
    (cliMain env g k str disk (w :: ws)).warnings = [] ∧
    ((cliMain env g k str disk (w :: ws)).result = .usage ∨ (cliMain env g k str disk (w :: ws)).result = .help) := by
  show Stopped _
  unfold cliMain
  rcases topLoop_cases env.digit hdot (w :: ws) false with ⟨s, hs⟩ | ⟨pre, name, rest, extra, e, hs, -, he⟩
  · rw [hs]
    exact stopped_stop _ _
  · rw [hs]
    dsimp only
    cases pre with
    | nil =>
      cases e
      have h0 : ∀ t : Text, t.head? ≠ some '-' → w ≠ t := by
        rintro t ht rfl
        exact ht hw
      rw [if_neg (h0 _ (by decide)), if_neg (h0 _ (by decide)), if_neg (h0 _ (by decide)), if_neg (h0 _ (by decide))]
      exact ⟨rfl, .inl rfl⟩
    | cons y pre =>
      rw [he (by simp)]
      obtain ⟨h1, h2, h3, h4⟩ := extra_stopped env g k str disk rest
      split
      · exact h1
      split
      · exact h2
      split
      · exact h3
      split
      · exact h4
      exact ⟨rfl, .inl rfl⟩

/-- The help text of the program. -/
theorem C86_help (env : CliEnv X R) (g : Rng (FP R)) (k : Nat) (str : Nat → Text) (disk : Disk)
    (w : Text) (ws : List Text) (hw : w = "-h".toList ∨ (w <+: "--help".toList ∧ 2 < w.length)) :
    cliMain env g k str disk (w :: ws) = ⟨disk.files, [], .help⟩ := by
  have h : w ∈ ["-h".toList, "--h".toList, "--he".toList, "--hel".toList, "--help".toList] := by
    rcases hw with rfl | ⟨h, hl⟩
    · simp
    · rw [List.prefix_iff_eq_take] at h
      have hle : w.length ≤ 6 := by
        exact (List.IsPrefix.length_le (List.prefix_iff_eq_take.2 h) : w.length ≤ "--help".toList.length)
      generalize w.length = n at h hl hle
      subst h
      have : n = 3 ∨ n = 4 ∨ n = 5 ∨ n = 6 := by omega
      rcases this with rfl | rfl | rfl | rfl <;> decide
  fin_cases h <;> rfl

/-! ### Files -/

theorem step_files (env : CliEnv X R) (disk : Disk) (a a' : GraphSpace) (x : GraphOpt × List Text)
    (h : graphStep env disk a x = .ok a') (p : Text) (hp : a'.files p ≠ a.files p) :
    a'.files p = some [] ∧ p ≠ ['-'] ∧ disk.writable p = true ∧ x = (.outfile, [p]) := by
  unfold graphStep at h
  split at h
  case h_4 =>
    rename_i q
    split at h
    · rename_i files hf
      cases h
      unfold Disk.create at hf
      by_cases hq : q = ['-']
      · have e : files = a.files := by
          have := (if_pos hq).symm.trans hf
          exact (Option.some.inj this).symm
        exact (hp (congrFun e p)).elim
      · have hf := (if_neg hq).symm.trans hf
        by_cases hw : disk.writable q = true
        · have hf := Option.some.inj ((if_pos hw).symm.trans hf)
          have hfp := congrFun hf p
          by_cases hpq : p = q
          · subst hpq
            exact ⟨hfp.symm.trans (if_pos rfl), hq, hw, rfl⟩
          · exact (hp (hfp.symm.trans (if_neg hpq))).elim
        · have := (if_neg hw).symm.trans hf
          cases this
    · cases h
  all_goals
    first
    | cases h; exact (hp rfl).elim
    | (cases h; done)
    | (split at h
       · cases h; exact (hp rfl).elim
       · cases h)

theorem actions_files (env : CliEnv X R) (disk : Disk) (acts : List (GraphOpt × List Text)) : ∀ (a : GraphSpace) (p : Text),
    (runActions (graphStep env disk) a acts).1.files p ≠ a.files p →
    (runActions (graphStep env disk) a acts).1.files p = some [] ∧ p ≠ ['-'] ∧ disk.writable p = true ∧
      (GraphOpt.outfile, [p]) ∈ acts := by
  induction acts with
  | nil => exact fun a p h => (h rfl).elim
  | cons x xs ih =>
    intro a p h
    rw [runActions] at h ⊢
    cases hs : graphStep env disk a x with
    | error s =>
      rw [hs] at h
      exact (h rfl).elim
    | ok a' =>
      rw [hs] at h
      dsimp only at h ⊢
      by_cases h2 : (runActions (graphStep env disk) a' xs).1.files p = a'.files p
      · rw [h2] at h ⊢
        obtain ⟨e1, e2, e3, e4⟩ := step_files env disk a a' x hs p h
        exact ⟨e1, e2, e3, by simp [e4]⟩
      · obtain ⟨e1, e2, e3, e4⟩ := ih a' p h2
        exact ⟨e1, e2, e3, List.mem_cons_of_mem _ e4⟩

theorem graph_files (env : CliEnv X R) (disk : Disk) (extra : Bool) (args : List Text) :
    (graphCommand env disk extra args).files =
      (runActions (graphStep env disk) { files := disk.files } (parseLine env.digit graphTable args).1).1.files := by
  unfold graphCommand
  dsimp only
  split
  · rename_i h; rw [h]
  · rename_i h
    rw [h]
    split
    · split <;> rfl
    · rfl

theorem other_files (env : CliEnv X R) (g : Rng (FP R)) (k : Nat) (str : Nat → Text) (disk : Disk) (extra : Bool)
    (args : List Text) :
    (runCommand env disk extra args).files = disk.files ∧
    (synthCommand env g k str disk extra args).files = disk.files ∧
    (httpdCommand env.digit disk extra args : MainOutcome X R).files = disk.files := by
  refine ⟨?_, ?_, ?_⟩
  · unfold runCommand
    dsimp only
    split
    · rfl
    · split
      · split <;> rfl
      · rfl
  · unfold synthCommand
    dsimp only
    split
    · rfl
    · split
      · split <;> rfl
      · rfl
  · unfold httpdCommand
    dsimp only
    split <;> rfl

end

/-! ### Values are parts of words -/

section
variable {κ : Type} {digit : Char → Option Nat} {T : List (Opt κ)}

/-- The text that can become a value. -/
def Tok.carries : Tok κ → Text → Prop
  | .arg t, v => v = t
  | .opt _ _ _ (some e), v => v <:+ e
  | _, _ => False

theorem reads_carries {w : Text} {t : Tok κ} (h : Reads T w t) {v : Text} (hv : t.carries v) : v <:+ w := by
  cases h with
  | plain => exact hv.elim
  | joined n n' o e h hw hn =>
    rw [hw]
    exact (List.IsSuffix.trans hv (List.suffix_cons _ _)).trans (List.suffix_append _ _)
  | attached c d o e h hw hd =>
    rw [hw]
    exact (List.IsSuffix.trans hv (List.suffix_cons _ _)).trans (List.suffix_cons _ _)

theorem classify_carries (hT : TableOk T) (hdot : digit '.' = none) : ∀ (args : List Text) (toks : List (Tok κ)),
    classify digit T args = some toks → ∀ t ∈ toks, ∀ v, t.carries v → ∃ w ∈ args, v <:+ w := by
  intro args
  induction args with
  | nil =>
    intro toks h
    cases h
    simp
  | cons w ws ih =>
    intro toks h t ht v hv
    by_cases hw : w = ['-', '-']
    · have h' : some (.dashes :: ws.map .arg) = some toks := (if_pos hw).symm.trans h
      cases h'
      rcases List.mem_cons.1 ht with rfl | ht
      · exact hv.elim
      · obtain ⟨u, hu, rfl⟩ := List.mem_map.1 ht
        exact ⟨u, List.mem_cons_of_mem _ hu, by rw [show v = u from hv]⟩
    · have h' := (if_neg hw).symm.trans h
      obtain ⟨t', h1, h2⟩ := Option.bind_eq_some_iff.1 h'
      obtain ⟨ts, h3, rfl⟩ := Option.map_eq_some_iff.1 h2
      rcases List.mem_cons.1 ht with rfl | ht
      · refine ⟨w, by simp, ?_⟩
        rcases parseOptional_cases hT hdot w with ⟨t', h', hr⟩ | ⟨h', -⟩ | ⟨h', -⟩ | ⟨h', -⟩ <;> rw [h1] at h'
        · cases h'
          exact reads_carries hr hv
        · cases h'
          rw [show v = w from hv]
        · cases h'
          exact hv.elim
        · cases h'
      · obtain ⟨u, hu, hs⟩ := ih ts h3 t ht v hv
        exact ⟨u, List.mem_cons_of_mem _ hu, hs⟩

theorem matchArgs_carries {n : Nargs} {rest rest' : List (Tok κ)} {vs : List Text} (h : matchArgs n rest = some (vs, rest')) :
    (∀ v ∈ vs, ∃ t ∈ rest, t.carries v) ∧ ∀ t ∈ rest', t ∈ rest := by
  have e := (matchArgs_some h).2
  rw [e]
  refine ⟨fun v hv => ⟨.arg v, ?_, rfl⟩, fun t ht => List.mem_append_right _ ht⟩
  exact List.mem_append_left _ (List.mem_map_of_mem hv)

theorem consumeExplicit_carries {rest rest' : List (Tok κ)} (k : Nat) : ∀ (e : Text), e.length ≤ k → ∀ (o : Opt κ)
    (single eq : Bool) (acts : List (κ × List Text)) (extras : List Text),
    consumeExplicit T rest o single eq e = some (acts, extras, rest') →
    (∀ x ∈ acts, ∀ v ∈ x.2, v <:+ e ∨ ∃ t ∈ rest, t.carries v) ∧ ∀ t ∈ rest', t ∈ rest := by
  induction k with
  | zero =>
    intro e he o single eq acts extras h
    obtain rfl : e = [] := List.length_eq_zero_iff.1 (Nat.le_zero.1 he)
    rw [consumeExplicit] at h
    split at h
    · cases h
    · cases h
      simp
  | succ k ih =>
    intro e he o single eq acts extras h
    cases e with
    | nil =>
      rw [consumeExplicit] at h
      split at h
      · cases h
      · cases h
        simp
    | cons c e =>
      rw [consumeExplicit.eq_def] at h
      dsimp only at h
      split at h
      · split at h
        · cases h
        split at h
        · cases h
          simp
        · rename_i o' _
          have up : ∀ {e'' : Text}, e'' <:+ e → ∀ {acts : List (κ × List Text)} {rest' : List (Tok κ)},
              ((∀ x ∈ acts, ∀ v ∈ x.2, v <:+ e'' ∨ ∃ t ∈ rest, t.carries v) ∧ ∀ t ∈ rest', t ∈ rest) →
              (∀ x ∈ (o.key, []) :: acts, ∀ v ∈ x.2, v <:+ c :: e ∨ ∃ t ∈ rest, t.carries v) ∧ ∀ t ∈ rest', t ∈ rest := by
            intro e'' hs acts rest' h
            refine ⟨fun x hx v hv => ?_, h.2⟩
            rcases List.mem_cons.1 hx with rfl | hx
            · cases hv
            · exact (h.1 x hx v hv).imp_left fun h => (h.trans hs).trans (List.suffix_cons _ _)
          split at h
          · obtain ⟨⟨vs, r⟩, h1, h2⟩ := Option.map_eq_some_iff.1 h
            cases h2
            obtain ⟨m1, m2⟩ := matchArgs_carries h1
            exact up (List.suffix_refl _) ⟨fun x hx v hv => .inr (by
              rw [List.mem_singleton] at hx
              subst hx
              exact m1 v hv), m2⟩
          · rename_i e'
            obtain ⟨⟨as, ex, r⟩, h1, h2⟩ := Option.map_eq_some_iff.1 h
            cases h2
            exact up (List.suffix_cons _ _) (ih e' (by simp at he; omega) _ _ _ _ _ h1)
          · rename_i d e' _
            obtain ⟨⟨as, ex, r⟩, h1, h2⟩ := Option.map_eq_some_iff.1 h
            cases h2
            exact up (List.suffix_refl _) (ih (d :: e') (by simp at he ⊢; omega) _ _ _ _ _ h1)
      · cases h
        simp

theorem consumeOptional_carries {rest rest' : List (Tok κ)} {o : Opt κ} {name : Text} {eq : Bool} {ex : Option Text}
    {acts : List (κ × List Text)} {extras : List Text}
    (h : consumeOptional T rest o name eq ex = some (acts, extras, rest')) :
    (∀ x ∈ acts, ∀ v ∈ x.2, ∃ t ∈ Tok.opt o name eq ex :: rest, t.carries v) ∧ ∀ t ∈ rest', t ∈ rest := by
  unfold consumeOptional at h
  cases ex with
  | none =>
    obtain ⟨⟨vs, r⟩, h1, h2⟩ := Option.map_eq_some_iff.1 h
    cases h2
    obtain ⟨m1, m2⟩ := matchArgs_carries h1
    refine ⟨fun x hx v hv => ?_, m2⟩
    rw [List.mem_singleton] at hx
    subst hx
    obtain ⟨t, ht, hc⟩ := m1 v hv
    exact ⟨t, List.mem_cons_of_mem _ ht, hc⟩
  | some e =>
    obtain ⟨m1, m2⟩ := consumeExplicit_carries e.length e (Nat.le_refl _) _ _ _ _ _ h
    refine ⟨fun x hx v hv => ?_, m2⟩
    rcases m1 x hx v hv with h | ⟨t, ht, hc⟩
    · exact ⟨_, List.mem_cons_self, h⟩
    · exact ⟨t, List.mem_cons_of_mem _ ht, hc⟩

theorem consume_carries (n : Nat) : ∀ (toks : List (Tok κ)), ∀ x ∈ (consume T n toks).1, ∀ v ∈ x.2,
    ∃ t ∈ toks, t.carries v := by
  induction n with
  | zero => intro toks x hx; cases hx
  | succ n ih =>
    intro toks x hx v hv
    have up : ∀ {t : Tok κ} {r : List (Tok κ)}, (∃ u ∈ r, u.carries v) → ∃ u ∈ t :: r, u.carries v :=
      fun ⟨u, hu, hc⟩ => ⟨u, List.mem_cons_of_mem _ hu, hc⟩
    cases toks with
    | nil => cases hx
    | cons t r =>
      cases t with
      | arg t => exact up (ih r x hx v hv)
      | dashes => exact up (ih r x hx v hv)
      | unknown t => exact up (ih r x hx v hv)
      | opt o name eq ex =>
        rw [consume] at hx
        cases hc : consumeOptional T r o name eq ex with
        | none => rw [hc] at hx; cases hx
        | some q =>
          obtain ⟨acts, extras, r'⟩ := q
          rw [hc] at hx
          obtain ⟨m1, m2⟩ := consumeOptional_carries hc
          rcases List.mem_append.1 hx with hx | hx
          · exact m1 x hx v hv
          · obtain ⟨u, hu, hcu⟩ := ih r' x hx v hv
            exact ⟨u, List.mem_cons_of_mem _ (m2 u hu), hcu⟩

theorem parseLine_carries (hT : TableOk T) (hdot : digit '.' = none) (args : List Text) :
    ∀ x ∈ (parseLine digit T args).1, ∀ v ∈ x.2, ∃ w ∈ args, v <:+ w := by
  intro x hx v hv
  unfold parseLine at hx
  cases hc : classify digit T args with
  | none => rw [hc] at hx; cases hx
  | some toks =>
    rw [hc] at hx
    obtain ⟨t, ht, hcv⟩ := consume_carries _ toks x hx v hv
    exact classify_carries hT hdot args toks hc t ht v hcv

end

section
variable {X : Type} [DecidableEq X] {R : Rounding}

/-- Whatever the command line, a file is changed only by emptying (or creating) it, its name is
the end of a word after the word `graph`, and it could be written. -/
theorem C86_files (env : CliEnv X R) (hdot : env.digit '.' = none) (g : Rng (FP R)) (k : Nat) (str : Nat → Text)
    (disk : Disk) (args : List Text) (p : Text) (h : (cliMain env g k str disk args).files p ≠ disk.files p) :
    (cliMain env g k str disk args).files p = some [] ∧ p ≠ ['-'] ∧ disk.writable p = true ∧
    ∃ pre rest, args = pre ++ "graph".toList :: rest ∧ ∃ w ∈ rest, p <:+ w := by
  unfold cliMain at h ⊢
  rcases topLoop_cases env.digit hdot args false with ⟨s, hs⟩ | ⟨pre, name, rest, extra, e, hs, -, -⟩
  · rw [hs] at h
    exact (h rfl).elim
  · rw [hs] at h ⊢
    dsimp only at h ⊢
    obtain ⟨o1, o2, o3⟩ := other_files env g k str disk extra rest
    by_cases n1 : name = "run".toList
    · rw [if_pos n1, o1] at h
      exact (h rfl).elim
    rw [if_neg n1] at h ⊢
    by_cases n2 : name = "synth".toList
    · rw [if_pos n2, o2] at h
      exact (h rfl).elim
    rw [if_neg n2] at h ⊢
    by_cases n3 : name = "graph".toList
    · rw [if_pos n3, graph_files] at h ⊢
      obtain ⟨e1, e2, e3, e4⟩ := actions_files env disk _ _ p h
      refine ⟨e1, e2, e3, pre, rest, by rw [e, n3], ?_⟩
      exact parseLine_carries graph_ok' hdot rest _ e4 p (by simp)
    rw [if_neg n3] at h
    by_cases n4 : name = "httpd".toList
    · rw [if_pos n4, o3] at h
      exact (h rfl).elim
    rw [if_neg n4] at h
    exact (h rfl).elim

/-- A command `graph` that is stopped has changed output files only. -/
theorem C86_graph_files (env : CliEnv X R) (hdot : env.digit '.' = none) (g : Rng (FP R)) (k : Nat) (str : Nat → Text)
    (disk : Disk) (args : List Text) (acts : List (GraphOpt × List Text)) (hl : Line env.digit graphTable args acts)
    (p : Text) (h : (cliMain env g k str disk ("graph".toList :: args)).files p ≠ disk.files p) :
    (cliMain env g k str disk ("graph".toList :: args)).files p = some [] ∧ disk.writable p = true ∧
    (GraphOpt.outfile, [p]) ∈ acts := by
  rw [main_graph, graph_files, (parseLine_iff graph_ok' hdot _ _).2 hl] at h ⊢
  obtain ⟨e1, e2, e3, e4⟩ := actions_files env disk _ _ p h
  exact ⟨e1, e3, e4⟩

/-- The files are emptied as their options are read, up to the first option that is not
accepted or asks for help. -/
theorem C86_graph_emptied (env : CliEnv X R) (hdot : env.digit '.' = none) (g : Rng (FP R)) (k : Nat) (str : Nat → Text)
    (disk : Disk) (args : List Text) (acts : List (GraphOpt × List Text)) (hl : Line env.digit graphTable args acts) :
    ∃ pre post, acts = pre ++ post ∧
      (∀ pre' k vs post', pre = pre' ++ (k, vs) :: post' → k ≠ .help ∧ ∀ v ∈ vs, GraphValue env disk pre' k v) ∧
      (∀ k vs post', post = (k, vs) :: post' → k = .help ∨ ¬ ∀ v ∈ vs, GraphValue env disk pre k v) ∧
      FilesAfter disk pre (cliMain env g k str disk ("graph".toList :: args)).files := by
  rw [main_graph, graph_files, (parseLine_iff graph_ok' hdot _ _).2 hl]
  dsimp only
  rcases graph_actions env disk hl with ⟨hg, e⟩ | ⟨pre, x, post, e, hg, ⟨hx, e'⟩ | ⟨hn, hx, e'⟩⟩
  · rw [e]
    exact ⟨acts, [], by simp, fun pre' k vs post' h => hg _ _ _ h, nofun, filesAfter disk acts⟩
  · rw [e']
    refine ⟨pre, x :: post, e, fun pre' k vs post' h => hg _ _ _ h, ?_, filesAfter disk pre⟩
    intro k vs post' h
    cases h
    exact .inl hx
  · rw [e']
    refine ⟨pre, x :: post, e, fun pre' k vs post' h => hg _ _ _ h, ?_, filesAfter disk pre⟩
    intro k vs post' h
    cases h
    exact .inr hx

/-- If the output file is the file with the data, the data are lost: what is drawn is the
empty file. -/
theorem C86_data_loss (env : CliEnv X R) (hdot : env.digit '.' = none) (g : Rng (FP R)) (k : Nat) (str : Nat → Text)
    (disk : Disk) (p t : Text) (hv : Value env.digit graphTable p) (hp : p ≠ ['-']) (hr : disk.readable p = true)
    (hw : disk.writable p = true) (ht : disk.files p = some t) :
    (cliMain env g k str disk ["graph".toList, "-f".toList, p, "-o".toList, p]).files p = some [] ∧
    (cliMain env g k str disk ["graph".toList, "-f".toList, p, "-o".toList, p]).result =
      graphEnd p (cliGraph env { dataset := [] }) := by
  have hl : Line env.digit graphTable ["-f".toList, p, "-o".toList, p]
      [(GraphOpt.dataset, [p]), (GraphOpt.outfile, [p])] := by
    have c1 : Calls graphTable "-f".toList ⟨.dataset, ["-f".toList, "--dataset".toList], .one⟩ :=
      .name _ _ ⟨List.mem_cons_of_mem _ List.mem_cons_self, List.mem_cons_self⟩
    have c2 : Calls graphTable "-o".toList ⟨.outfile, ["-o".toList, "--outfile".toList], .one⟩ :=
      .name _ _ ⟨List.mem_cons_of_mem _ (List.mem_cons_of_mem _ List.mem_cons_self), List.mem_cons_self⟩
    have hv' : ∀ v ∈ [p], Value env.digit graphTable v := by simpa using hv
    have l2 : Line env.digit graphTable ("-o".toList :: ([p] ++ [])) ([(GraphOpt.outfile, [p])] ++ []) :=
      .cons _ _ _ _ _ (.apart _ _ _ c2 ⟨p, rfl⟩) hv' (by decide) .nil
    exact .cons "-f".toList [p] ["-o".toList, p] [(GraphOpt.dataset, [p])] [(GraphOpt.outfile, [p])]
      (.apart _ _ _ c1 ⟨p, rfl⟩) hv' (by decide) l2
  have never : ∀ k : GraphOpt, k ≠ .dataset → k ≠ .outfile →
      LastGiven k [(GraphOpt.dataset, [p]), (GraphOpt.outfile, [p])] none :=
    fun k h1 h2 => .never (by simp [h1, h2])
  have hem : Emptied [(GraphOpt.dataset, [p]), (GraphOpt.outfile, [p])] p := ⟨hp, by simp⟩
  have hg : GraphGiven env disk [(GraphOpt.dataset, [p]), (GraphOpt.outfile, [p])] { dataset := [] } p :=
    { noHelp := by simp
      proper := by
        intro pre k vs post e v hv
        have hm : (k, vs) ∈ [(GraphOpt.dataset, [p]), (GraphOpt.outfile, [p])] := by rw [e]; simp
        simp only [List.mem_cons, Prod.mk.injEq, List.not_mem_nil, or_false] at hm
        rcases hm with ⟨rfl, rfl⟩ | ⟨rfl, rfl⟩
        · rw [List.mem_singleton] at hv
          subst hv
          exact .inr ⟨hr, .inr ⟨t, ht⟩⟩
        · rw [List.mem_singleton] at hv
          subst hv
          exact .inr hw
      dataset := ⟨p, .last [] [(.outfile, [p])] [p] rfl (by simp), .inr (.inl ⟨hem, rfl⟩)⟩
      outfile := .last [(.dataset, [p])] [] [p] rfl (by simp)
      width := never _ (by decide) (by decide)
      nodeRadius := never _ (by decide) (by decide)
      spacing := never _ (by decide) (by decide)
      fontSize := never _ (by decide) (by decide)
      lineWidth := never _ (by decide) (by decide)
      nodeBorderWidth := never _ (by decide) (by decide)
      oneIndexed := by simp }
  obtain ⟨files, hf, e⟩ := C86_graph env hdot g k str disk _ _ _ p hl hg
  rw [e]
  exact ⟨((hf p).resolve_right fun h => h.1 hem).2, rfl⟩

end

/-! ### Examples -/

section

theorem ascii_dot : asciiDigit '.' = none := by decide

/-- A file with the data of `demoRun`. -/
def demoDisk : Disk where
  files := fun p => if p = "x.csv".toList then some "1,\n1,2\n3,".toList else none
  readable := fun _ => true
  writable := fun _ => true
  stdin := []

theorem demo_file : demoDisk.files "x.csv".toList = some "1,\n1,2\n3,".toList := by
  show (if ("x.csv".toList : Text) = "x.csv".toList then some "1,\n1,2\n3,".toList else none) = _
  exact if_pos rfl

/-- `run -a voting sums -pg=2 --data=x.csv --so 1 -so accuracy trust`: values in following words,
in the same word, an abbreviation, an option after a flag. -/
def demoWords : List Text :=
  ["-a".toList, "voting".toList, "sums".toList, "-pg=2".toList, "--data=x.csv".toList, "--so".toList, "1".toList,
   "-so".toList, "accuracy".toList, "trust".toList]

def demoActs : List (RunOpt × List Text) :=
  [(.algorithm, ["voting".toList, "sums".toList]), (.params, ["g=2".toList]), (.dataset, ["x.csv".toList]),
   (.sources, ["1".toList]), (.supervised, []), (.output, ["accuracy".toList, "trust".toList])]

theorem demo_line : Line asciiDigit runTable demoWords demoActs :=
  (parseLine_iff run_ok ascii_dot _ _).1 (by decide +kernel)

theorem demo_means : RunMeans demoCli demoDisk demoActs demoRun where
  noHelp := by simp [demoActs]
  proper := by
    intro k vs h v hv
    have h' : (k, vs) ∈ demoActs := h
    unfold demoActs at h'
    simp only [List.mem_cons, Prod.mk.injEq, List.not_mem_nil, or_false] at h'
    have cs := demoRun_accepted
    rcases h' with ⟨rfl, rfl⟩ | ⟨rfl, rfl⟩ | ⟨rfl, rfl⟩ | ⟨rfl, rfl⟩ | ⟨rfl, rfl⟩ | ⟨rfl, rfl⟩ <;>
      simp only [List.mem_cons, List.not_mem_nil, or_false] at hv
    · rcases hv with rfl | rfl
      · exact ⟨.voting, rfl⟩
      · exact ⟨.sums, rfl⟩
    · subst hv
      have := cs.params
      cases this with
      | cons h _ =>
        obtain ⟨value, h⟩ := h
        exact ⟨_, value, _, h⟩
    · subst hv
      exact ⟨_, .inr ⟨by decide, rfl, demo_file⟩⟩
    · subst hv
      exact ⟨1, rfl⟩
    · rcases hv with rfl | rfl
      · exact ⟨.accuracy, rfl⟩
      · exact ⟨.trust, rfl⟩
  algorithms := lastGiven_iff.2 rfl
  params := lastGiven_iff.2 rfl
  dataset := ⟨"x.csv".toList, lastGiven_iff.2 rfl, .inr ⟨by decide, rfl, demo_file⟩⟩
  supervised := ⟨fun _ => ⟨[], by simp [demoActs]⟩, fun _ => rfl⟩
  sources := lastGiven_iff.2 rfl
  vars := lastGiven_iff.2 rfl
  output := lastGiven_iff.2 rfl

example := C86_run demoCli asciiDigit_newline ascii_dot Toy.rng 0 Toy.unary demoDisk demoWords demoActs demoRun demo_line
  demo_means

/-- `synth --trust h h --num-vars 7 --num-vars=3`: the last number counts. -/
def synthWords : List Text :=
  ["--trust".toList, "h".toList, "h".toList, "--num-vars".toList, "7".toList, "--num-vars=3".toList]

def synthActs : List (SynthOpt × List Text) :=
  [(.trust, ["h".toList, "h".toList]), (.numVars, ["7".toList]), (.numVars, ["3".toList])]

theorem synth_line : Line asciiDigit synthTable synthWords synthActs :=
  (parseLine_iff synth_ok ascii_dot _ _).1 (by decide +kernel)

theorem synth_demo_given : SynthGiven demoCli synthActs demoSynth where
  noHelp := by simp [synthActs]
  proper := by
    intro k vs h v hv
    have h' : (k, vs) ∈ synthActs := h
    unfold synthActs at h'
    simp only [List.mem_cons, Prod.mk.injEq, List.not_mem_nil, or_false] at h'
    have hh : demoCliFloat "h".toList = some (Ex.fin (1 / 2)) := by
      unfold demoCliFloat
      rw [if_pos rfl]
    rcases h' with ⟨rfl, rfl⟩ | ⟨rfl, rfl⟩ | ⟨rfl, rfl⟩ <;>
      simp only [List.mem_cons, List.not_mem_nil, or_false, or_self] at hv
    · subst hv
      exact ⟨_, hh⟩
    · subst hv
      exact ⟨7, rfl⟩
    · subst hv
      exact ⟨3, rfl⟩
  trust := lastGiven_iff.2 rfl
  numVars := lastGiven_iff.2 rfl
  claimProb := lastGiven_iff.2 rfl
  domainSize := lastGiven_iff.2 rfl

example := C86_synth demoCli ascii_dot Toy.rng 0 Toy.unary demoDisk synthWords synthActs demoSynth synth_line
  synth_demo_given

/-- Not readable: a value without option, an ambiguous option, an option without value, an unknown
option, a flag with a value. -/
example : ∀ ws ∈ [["x".toList], ["--s".toList], ["-a".toList], ["--magic".toList], ["--supervised=1".toList]],
    ¬ ∃ acts, Line asciiDigit runTable ws acts := by
  rintro ws hws ⟨acts, h⟩
  have e := congrArg Prod.snd ((parseLine_iff run_ok ascii_dot _ _).2 h)
  have key : ∀ ws ∈ [["x".toList], ["--s".toList], ["-a".toList], ["--magic".toList], ["--supervised=1".toList]],
    (parseLine asciiDigit runTable ws).2 ≠ some [] := by decide +kernel
  exact key ws hws e

/-- Negative numbers are values. -/
example : Line asciiDigit synthTable ["--num-vars".toList, "-3".toList] [(.numVars, ["-3".toList])] :=
  (parseLine_iff synth_ok ascii_dot _ _).1 (by decide +kernel)

example : Value asciiDigit graphTable "x.csv".toList := .inl (by decide)

example := C86_data_loss demoCli ascii_dot Toy.rng 0 Toy.unary demoDisk "x.csv".toList _ (.inl (by decide)) (by decide)
  rfl rfl demo_file
example := C86_graph_help demoCli ascii_dot Toy.rng 0 Toy.unary demoDisk ["-h".toList] [(.help, [])]
  ((parseLine_iff graph_ok' ascii_dot _ _).1 (by decide +kernel))
example := C86_run_help demoCli asciiDigit_newline ascii_dot Toy.rng 0 Toy.unary demoDisk ["-sh".toList]
  [(.supervised, []), (.help, [])] ((parseLine_iff run_ok ascii_dot _ _).1 (by decide +kernel))

end
end TD
