import Verif.Props.Frontend
import Verif.Props.Web
/-!
# C74: requests made by the form, and their answers
-/

namespace TD
open Spec

section
variable {X : Type} [DecidableEq X] {R : Rounding}

theorem numeral_chars {digit : Char → Option Nat} {t : Text} {n : Nat} (h : Numeral digit t n) :
    t ≠ [] ∧ ∀ c ∈ t, ∃ d, digit c = some d := by
  induction h with
  | one c d h => exact ⟨by simp, by simp [h]⟩
  | more t n c d _ h ih =>
    refine ⟨by simp, ?_⟩
    intro c' hc
    rcases List.mem_append.1 hc with hc | hc
    · exact ih.2 c' hc
    · simp only [List.mem_singleton] at hc
      exact ⟨d, hc ▸ h⟩

theorem stripped_self {t : Text} (h : ∀ c ∈ t.head?, isBlank c = false)
    (h' : ∀ c ∈ t.getLast?, isBlank c = false) : Stripped t t :=
  ⟨⟨[], [], by simp, by simp, by simp⟩, h, h'⟩

/-- The text of the settings is one line that assigns the iterator. -/
theorem settings_text {env : Env X R} {strInt : Int → Text} {toFixed : FP R → Text} {strVal : X → Text}
    (hf : FormOk env strInt toFixed strVal) (hnl : env.digit '\n' = none) {s : IterSettings (FP R)}
    {it : IterCfg (FP R)} (hs : SettingsMean env toFixed s it) :
    ∃ t, iterationString strInt toFixed s = .ok t ∧ t ≠ [] ∧ '\n' ∉ t ∧
      algorithmParameter env.digit env.parseFloat t = .ok ("iterator".toList, .iterator it) := by
  have h100 : Numeral env.digit ['1', '0', '0'] 100 := by
    have := hf.numeral 100
    rw [show ((100 : Nat) : Int) = 100 from rfl, hf.hundred] at this
    exact this
  have hassign : ∀ value : Text, value ≠ [] → (∀ c ∈ value.head?, isBlank c = false) →
      (∀ c ∈ value.getLast?, isBlank c = false) →
      Assignment ("iterator=".toList ++ value) "iterator".toList value := by
    intro value _ h1 h2
    exact ⟨"iterator".toList, value, by simp, by decide,
      stripped_self (by decide) (by decide), stripped_self h1 h2⟩
  cases hs with
  | fixed k measure th hk =>
    obtain ⟨hne, hch⟩ := numeral_chars (hf.numeral k)
    refine ⟨_, rfl, by simp, ?_, ?_⟩
    · simp only [List.mem_append, not_or]
      refine ⟨by decide, by decide, ?_⟩
      intro hm
      obtain ⟨d, hd⟩ := hch _ hm
      rw [hnl] at hd; cases hd
    · refine ((C49_parameter _ _ hnl _).1 _ _).2 ⟨"fixed-".toList ++ strInt k, hassign _ (by simp) (by simp; decide) ?_, ?_⟩
      · intro c hc
        rw [List.getLast?_append_of_ne_nil _ hne] at hc
        obtain ⟨d, hd⟩ := hch c (List.mem_of_mem_getLast? hc)
        exact (hf.digits c d hd).1
      · refine .iterator _ _ ?_
        have := Describes.fixed (digit := env.digit) (parseFloat := env.parseFloat) (maxLimit := 200)
          (strInt k) [] k (hf.numeral k) (.inl rfl) (by exact_mod_cast hk)
        rwa [List.append_nil] at this
  | convergence m limit x y hx hy =>
    refine ⟨_, rfl, by simp, ?_, ?_⟩
    · simp only [List.mem_append, not_or]
      refine ⟨by decide, ⟨⟨?_, by decide⟩, (hf.fixedPoint x).2⟩, by decide⟩
      cases m <;> decide
    · refine ((C49_parameter _ _ hnl _).1 _ _).2 ⟨_, hassign _ (by simp) ?_ ?_, ?_⟩
      · cases m <;> (simp [measureName]; decide)
      · intro c hc
        rw [List.getLast?_append_of_ne_nil _ (by decide),
          show "-limit-100".toList.getLast? = some '0' from by decide] at hc
        cases hc
        decide
      · refine .iterator _ _ ?_
        have := Describes.convLimit (digit := env.digit) (parseFloat := env.parseFloat) (maxLimit := 200)
          m (toFixed x) ['1', '0', '0'] [] y 100 (hf.fixedPoint x).1 hx hy h100 (.inl rfl) (by norm_num)
        rw [List.append_nil] at this
        rw [List.append_assoc _ "-limit-".toList] at this
        exact this

theorem split_append_sep (a b : Text) (hb : '\n' ∉ b) :
    split '\n' (a ++ '\n' :: b) = split '\n' a ++ [b] := by
  have hs := split_separated '\n' a
  have key : ∀ {a : Text} {ps : List Text}, Separated '\n' a ps → Separated '\n' (a ++ '\n' :: b) (ps ++ [b]) := by
    intro a ps h
    induction h with
    | one p h => exact .more p b [b] h (.one b hb)
    | more p t ps h _ ih =>
      have := Separated.more p _ _ h ih
      simpa using this
  exact split_of_separated (key hs)

theorem params_append (digit : Char → Option Nat) (parseFloat : Text → Option (FP R)) (a t : Text)
    (ht : '\n' ∉ t) {k : Text} {v : PVal (FP R)} (h : algorithmParameter digit parseFloat t = .ok (k, v)) :
    getParamDict digit parseFloat (some (a ++ '\n' :: t)) =
      (getParamDict digit parseFloat (some a)).map fun ps => ps.set k v := by
  unfold getParamDict
  dsimp only
  rw [split_append_sep _ _ ht, List.foldlM_append]
  cases List.foldlM (fun (acc : Dict Text (PVal (FP R))) line => do
      let p ← algorithmParameter digit parseFloat line
      pure (acc.set p.1 p.2)) [] (split '\n' a) with
  | error e => rfl
  | ok ps =>
    simp only [List.foldlM_cons, List.foldlM_nil, h, bind, Except.bind, pure, Except.pure, Except.map]

/-- **C74.** The parameters sent are those of the text field, then the iterator of the
settings, which replaces any iterator given in the text field; an invalid text field makes
the server refuse the request. -/
theorem C74_parameters {env : Env X R} {strInt : Int → Text} {toFixed : FP R → Text} {strVal : X → Text}
    (hf : FormOk env strInt toFixed strVal) (hnl : env.digit '\n' = none) {s : IterSettings (FP R)}
    {it : IterCfg (FP R)} (hs : SettingsMean env toFixed s it) (sel : Selection)
    (hsel : sel ≠ .one "voting".toList) (algParams : Text) :
    ∃ t, formParams strInt toFixed sel s algParams = .ok (some t) ∧
      (algParams = [] → getParamDict env.digit env.parseFloat (some t) =
        .ok [("iterator".toList, .iterator it)]) ∧
      (algParams ≠ [] → ∀ ps, getParamDict env.digit env.parseFloat (some algParams) = .ok ps →
        ∃ ps', getParamDict env.digit env.parseFloat (some t) = .ok ps' ∧
          ps'.get? "iterator".toList = some (.iterator it) ∧
          ∀ k, k ≠ "iterator".toList → ps'.get? k = ps.get? k) ∧
      (algParams ≠ [] → ∀ e, getParamDict env.digit env.parseFloat (some algParams) = .error e →
        getParamDict env.digit env.parseFloat (some t) = .error e) := by
  obtain ⟨t, h1, h2, h3, h4⟩ := settings_text hf hnl hs
  have hv : sel.isVoting = false := by
    cases sel with
    | one l =>
      have : l ≠ "voting".toList := fun h => hsel (h ▸ rfl)
      simpa [Selection.isVoting] using this
    | many ls => rfl
  unfold formParams
  simp only [hv, Bool.false_eq_true, if_false, h1, bind, Except.bind, pure, Except.pure]
  by_cases ha : algParams = []
  · subst ha
    rw [if_pos rfl, if_neg (by simpa using h2)]
    refine ⟨_, rfl, fun _ => ?_, fun h => absurd rfl h, fun h => absurd rfl h⟩
    simp only [List.nil_append, getParamDict, split_of_separated (.one t h3), List.foldlM_cons, List.foldlM_nil, h4,
      bind, Except.bind, pure, Except.pure]
    rfl
  · rw [if_neg ha, if_neg (by simp)]
    refine ⟨_, rfl, fun h => absurd h ha, fun _ ps hps => ?_, fun _ e he => ?_⟩
    · rw [List.append_assoc, List.singleton_append, params_append _ _ _ _ h3 h4, hps]
      refine ⟨_, rfl, ?_, ?_⟩
      · rw [get?_set, if_pos rfl]
      · intro k hk
        rw [get?_set, if_neg hk]
    · rw [List.append_assoc, List.singleton_append, params_append _ _ _ _ h3 h4, he]
      rfl

/-- **C74.** A limit above 200 or below 0 is refused by the server. -/
theorem C74_limit {env : Env X R} {strInt : Int → Text} {toFixed : FP R → Text} {strVal : X → Text}
    (hf : FormOk env strInt toFixed strVal) (hnl : env.digit '\n' = none) (k : Int) (hk : k < 0 ∨ 200 < k)
    (measure : Text) (th : Option (FP R)) :
    ∃ t, iterationString strInt toFixed ⟨"fixed".toList, some k, measure, th⟩ = .ok t ∧
      algorithmParameter env.digit env.parseFloat t = .error .valueError := by
  refine ⟨_, rfl, ?_⟩
  cases h : algorithmParameter env.digit env.parseFloat ("iterator=".toList ++ ("fixed-".toList ++ strInt k)) with
  | error e => rw [(C49_parameter _ _ hnl _).2 e h]
  | ok p =>
    exfalso
    obtain ⟨name, v⟩ := p
    obtain ⟨value, ⟨a, b, e1, e2, e3, e4⟩, hm⟩ := ((C49_parameter _ _ hnl _).1 name v).1 h
    obtain ⟨rfl, rfl⟩ : "iterator".toList = a ∧ "fixed-".toList ++ strInt k = b :=
      append_sep_inj (c := '=') (by decide) e2 e1
    have hname : name = "iterator".toList := by
      rw [← strip_of_stripped e3]; decide
    subst hname
    -- the printed limit
    obtain ⟨sgn, n, hn, hsgn, hkn⟩ : ∃ (sgn : Text) (n : Nat), strInt k = sgn ++ strInt n ∧
        (sgn = [] ∨ sgn = ['-']) ∧ (sgn = [] → (n : Int) = k) := by
      rcases hk with hk | hk
      · refine ⟨['-'], k.natAbs, ?_, .inr rfl, by simp⟩
        have := hf.negative k.natAbs (by omega)
        rw [show -((k.natAbs : Nat) : Int) = k by omega] at this
        exact this
      · exact ⟨[], k.natAbs, by rw [show ((k.natAbs : Nat) : Int) = k by omega]; rfl, .inl rfl, fun _ => by omega⟩
    obtain ⟨hne, hch⟩ := numeral_chars (hf.numeral n)
    have hval : value = "fixed-".toList ++ strInt k := by
      refine (strip_of_stripped e4).symm.trans (strip_of_stripped (stripped_self (by simp; decide) ?_))
      intro c hc
      rw [hn, ← List.append_assoc, List.getLast?_append_of_ne_nil _ hne] at hc
      obtain ⟨d, hd⟩ := hch c (List.mem_of_mem_getLast? hc)
      exact (hf.digits c d hd).1
    have hdesc : ∃ it, Describes env.digit env.parseFloat 200 value it := by
      cases hm with
      | iterator _ it hd => exact ⟨it, hd⟩
      | num _ _ _ h1 => exact absurd rfl h1
    obtain ⟨it, hd⟩ := hdesc
    have hconv : ∀ (m : Measure) (r : Text), (measureName m).toList ++ r ≠ "fixed-".toList ++ strInt k := by
      intro m r h
      have := congrArg List.head? h
      cases m <;> simp [measureName] at this
    cases hd with
    | fixed ds nl n' h1 h2 h3 =>
      rw [List.append_assoc] at hval
      have e : ds ++ nl = strInt k := List.append_cancel_left hval
      rw [hn] at e
      obtain ⟨dne, dch⟩ := numeral_chars h1
      rcases hsgn with rfl | rfl
      · have hnl0 : nl = [] := by
          rcases h2 with h2 | rfl
          · exact h2
          · exfalso
            obtain ⟨d, hd⟩ := hch '\n' (by rw [List.nil_append] at e; rw [← e]; simp)
            rw [hnl] at hd; cases hd
        subst hnl0
        rw [List.append_nil, List.nil_append] at e
        subst e
        have u1 := ((numeral_iff env.digit).1 h1).2.2
        have u2 := ((numeral_iff env.digit).1 (hf.numeral n)).2.2
        have := hkn rfl
        omega
      · cases ds with
        | nil => exact dne rfl
        | cons c ds =>
          simp only [List.cons_append, List.nil_append, List.cons.injEq] at e
          obtain ⟨d, hd⟩ := dch c (by simp)
          exact (hf.digits c d hd).2 e.1
    | conv m th x h1 h2 h3 =>
      rw [List.append_assoc] at hval
      exact hconv m _ hval
    | convLimit m th ds nl x n' h1 h2 h3 h4 h5 h6 =>
      simp only [List.append_assoc] at hval
      exact hconv m _ hval

theorem sent_clean {strVal : X → Text} {parse : Text → Parsed X} (hrt : RoundTrips strVal parse)
    (h : ∀ v, '_' ∉ strVal v) (g : Grid X) :
    (jsAsCsv strVal g).filter (fun c => c ≠ '_') = jsAsCsv strVal g := by
  rw [List.filter_eq_self]
  have hj : ∀ ps : List Text, (∀ p ∈ ps, '_' ∉ p) → '_' ∉ joinWith ',' ps := by
    intro ps
    induction ps with
    | nil => simp [joinWith]
    | cons p ps ih =>
      intro hp
      cases ps with
      | nil => simpa [joinWith] using hp p (by simp)
      | cons q qs =>
        have := ih fun p' hp' => hp p' (by simp [hp'])
        simp only [joinWith, List.mem_append, List.mem_cons, not_or]
        exact ⟨hp p (by simp), by decide, this⟩
  intro c hc
  simp only [jsAsCsv, List.mem_flatMap, List.mem_append, List.mem_singleton] at hc
  obtain ⟨row, -, hc | rfl⟩ := hc
  · have := hj (row.map (cellText strVal)) (by
      intro p hp
      simp only [List.mem_map] at hp
      obtain ⟨v, -, rfl⟩ := hp
      cases v with
      | none => simp [cellText]
      | some v => exact h v)
    refine decide_eq_true ?_
    rintro rfl
    exact this hc
  · decide

end

section
variable {X : Type} [DecidableEq X]

/-- Some row of the matrix has two entries. -/
def TwoClaims (g : Grid X) : Prop := ∃ i j j' v v', j ≠ j' ∧ Holds g i j v ∧ Holds g i j' v'

theorem twoClaims_card {g : Grid X} (h : TwoClaims g) : ∃ s, 2 ≤ (claimsOf (getTriples g) s).card := by
  obtain ⟨i, j, j', v, v', hj, h1, h2⟩ := h
  have hr : recorded (getTriples g) = getTriples g := recorded_eq_self (noRepeats_getTriples g)
  have m1 : (j, v) ∈ claimsOf (getTriples g) i := by
    rw [mem_claimsOf, hr]
    exact (mem_getTriples g i j v).2 h1
  have m2 : (j', v') ∈ claimsOf (getTriples g) i := by
    rw [mem_claimsOf, hr]
    exact (mem_getTriples g i j' v').2 h2
  refine ⟨i, ?_⟩
  exact Finset.one_lt_card.2 ⟨_, m1, _, m2, fun e => hj (congrArg Prod.fst e)⟩

/-- **C74.** The form works: for a matrix of at least two columns with an entry, any of
the algorithms except UnboundedSums (AverageLog only if some row has two entries), valid
iteration settings, no further parameters, and no previous results or previous results of the
server, the server answers with the results of exactly the selected algorithms; only with
"until convergence" it can report that an algorithm did not converge. -/
theorem C74_answered {env : Env X .exact} (henv : WebEnvOk env) {strInt : Int → Text} {toFixed : Ex → Text}
    {strVal : X → Text} (hf : FormOk env strInt toFixed strVal) {m n : Nat} {g : Grid X} (hm : 0 < m)
    (hn : 2 ≤ n) (hg : Dims m n g) (hne : ∃ i j v, Holds g i j v) (labels : List Text) (hl0 : labels ≠ [])
    (hlab : ∀ t ∈ labels, ∃ c, t = (labelName c).toList ∧ c ≠ .usums ∧ (c = .averageLog → TwoClaims g))
    {s : IterSettings Ex} {it : IterCfg Ex} (hs : SettingsMean env toFixed s it) (compare : Bool)
    (previous : Option Text)
    (hprev : ∀ t, previous = some t → ∃ j trust belief time iterations, env.parseJson t = some j ∧
      Earlier j trust belief time iterations) :
    ∃ req d resp, formRequest strInt toFixed strVal (.many labels) g compare previous s [] = .ok req ∧
      Dataset.mk' (getTriples g) false none = .ok d ∧
      webRun env req = .ok resp ∧
      Answer env req.previousResults [("iterator".toList, .iterator it)] (getTriples g) d labels resp ∧
      ((∃ data messages, resp = .ok data messages ∧ ∀ label, label ∈ data.keys ↔ label ∈ labels) ∨
       (resp = .error 500 ∧ s.type = "convergence".toList)) := by
  obtain ⟨t, p1, p2, -⟩ := C74_parameters hf henv.newline hs (.many labels) nofun []
  have p2 := p2 rfl
  have hcl := sent_clean hf.values hf.noUnderscore g
  have hgne : g ≠ [] := by
    rintro rfl
    have := hg.1
    simp at this
    omega
  have hcsv : jsAsCsv strVal g ≠ [] := by
    rw [asCsv_eq strVal hgne]; simp
  have hread : csvToMasked env.parseValue ((jsAsCsv strVal g).filter fun c => c ≠ '_') = .ok g := by
    rw [hcl]
    exact C73_sent strVal env.parseValue hf.values hm hg (.inl hn)
  have hreq : formRequest strInt toFixed strVal (.many labels) g compare previous s [] = .ok
      { algorithm := labels
        csv := some (jsAsCsv strVal g)
        parameters := some t
        previousResults := if compare then previous else none } := by
    unfold formRequest
    rw [p1]
    rfl
  set req : Request :=
    { algorithm := labels
      csv := some (jsAsCsv strVal g)
      parameters := some t
      previousResults := if compare then previous else none } with hreq'
  have hpo : PreviousOk env.parseJson req.previousResults := by
    show PreviousOk env.parseJson (if compare then previous else none)
    cases compare with
    | false => exact .absent
    | true =>
      cases hp : previous with
      | none => exact .absent
      | some t =>
        obtain ⟨j, trust, belief, time, iterations, h1, h2⟩ := hprev t hp
        exact .good t j trust belief time iterations h1 h2
  have hnb : ∀ t, req.previousResults = some t → ¬ BadPrevious env.parseJson t := by
    intro t ht hb
    have ht' : (if compare then previous else none) = some t := ht
    cases compare with
    | false => cases ht'
    | true =>
      obtain ⟨j, trust, belief, time, iterations, h1, h2⟩ := hprev t ht'
      rcases hb with hb | ⟨fs, hb, nm, hnm, hnone⟩
      · rw [h1] at hb; cases hb
      · obtain ⟨fs', e1, f1, f2, f3, f4⟩ := h2.fields
        rw [h1, Option.some.injEq] at hb
        rw [e1] at hb
        cases hb
        simp only [List.mem_cons, List.not_mem_nil, or_false] at hnm
        rcases hnm with rfl | rfl | rfl | rfl
        · rw [f1] at hnone; cases hnone
        · rw [f2] at hnone; cases hnone
        · rw [f3] at hnone; cases hnone
        · rw [f4] at hnone; cases hnone
  have hit : ∀ ps it', ps = [("iterator".toList, PVal.iterator it)] → ∀ d, IterOr ps d it' → it' = it := by
    rintro ps it' rfl d (h | ⟨h, -⟩)
    · have : some (PVal.iterator it) = some (.iterator it') := h
      cases this; rfl
    · cases h
  have hnum : ∀ nm df (x : Ex), nm ≠ "iterator" →
      NumOr [("iterator".toList, PVal.iterator it)] nm df x → x = df := by
    intro nm df x hnm h
    have : Dict.get? [("iterator".toList, PVal.iterator it)] nm.toList = none := by
      cases hv : Dict.get? [("iterator".toList, PVal.iterator it)] nm.toList with
      | none => rfl
      | some v =>
        have := mem_of_lookup_some hv
        simp only [List.mem_singleton, Prod.mk.injEq] at this
        exact absurd (String.toList_injective this.1) hnm
    rcases h with h | ⟨-, h⟩
    · rw [this] at h; cases h
    · exact h
  have hsound : ∀ c cfg, (labelName c).toList ∈ labels →
      Constructed [("iterator".toList, PVal.iterator it)] c (.iter cfg) →
      Sound (getTriples g) cfg ∧ cfg.iterator = it := by
    intro c cfg hc hcon
    obtain ⟨c', e, hu, ha⟩ := hlab _ hc
    obtain rfl := labelName_injective e
    have hpr : ∀ {ps : Dict Text (PVal Ex)} {df p}, PriorOr ps df p → p ≠ none := by
      rintro ps df p (⟨q, -, rfl⟩ | ⟨-, rfl⟩) <;> nofun
    generalize hA : AnyAlg.iter cfg = A at hcon
    cases hcon with
    | voting => cases hA
    | sums it' p h1 h2 => cases hA; exact ⟨hpr h2, hit _ _ rfl _ h1⟩
    | averageLog it' p h1 h2 =>
      cases hA
      exact ⟨⟨hpr h2, twoClaims_card (ha rfl)⟩, hit _ _ rfl _ h1⟩
    | usums it' p h1 h2 => exact absurd rfl hu
    | investment g' it' p h0 h1 h2 =>
      cases hA
      exact ⟨⟨hpr h2, _, hnum _ _ _ (by decide) h0⟩, hit _ _ rfl _ h1⟩
    | pooledInvestment g' it' p h0 h1 h2 =>
      cases hA
      exact ⟨⟨hpr h2, _, hnum _ _ _ (by decide) h0⟩, hit _ _ rfl _ h1⟩
    | crh eps it' p h0 h1 h2 =>
      cases hA
      refine ⟨⟨_, hnum _ _ _ (by decide) h0, ?_⟩, hit _ _ rfl _ h1⟩
      norm_num
    | truthfinder rho gamma t0 it' p h3 h4 h5 h1 h2 =>
      cases hA
      refine ⟨⟨_, _, _, hnum _ _ _ (by decide) h3, hnum _ _ _ (by decide) h4, hnum _ _ _ (by decide) h5, ?_, ?_⟩,
        hit _ _ rfl _ h1⟩ <;> norm_num
  have htr : getTriples g ≠ [] := by
    obtain ⟨i, j, v, h⟩ := hne
    exact List.ne_nil_of_mem ((mem_getTriples g i j v).2 h)
  obtain ⟨d, hd, hans⟩ := C52_answer_partial henv req hl0 _ rfl hcsv _ p2 g hread hpo
    (fun _ c cfg h1 h2 => (hsound c cfg h1 h2).1)
  obtain ⟨resp, hrun, hA⟩ := hans (by
    intro i hi
    obtain ⟨c', e, hu, -⟩ := hlab _ (List.mem_of_getElem? hi)
    exact absurd (labelName_injective (e := .usums) e.symm) hu)
  refine ⟨req, d, resp, hreq, hd, hrun, hA, ?_⟩
  cases hA with
  | ok data mss h1 h2 h3 h4 h5 => exact .inl ⟨_, _, rfl, h3⟩
  | error i st label h hfail first =>
    right
    have hmem := List.mem_of_getElem? h
    cases hfail with
    | unknown hu =>
      obtain ⟨c, e, -⟩ := hlab _ hmem
      exact absurd e (hu c)
    | previous c a r t h1 h2 h3 h4 h5 => exact absurd h5 (hnb t h4)
    | empty c a h1 h2 h3 =>
      exfalso
      cases a with
      | voting =>
        have := (C09_empty_dataset_voting (α := Ex) ex_one_ne_zero _ _ _ d hd _).1.1 h3
        exact htr this
      | iter cfg =>
        have := (C09_empty_dataset (α := Ex) ex_one_ne_zero _ _ _ d hd cfg _ _ _).1.1 h3
        exact htr this
    | diverged c a h1 h2 h3 =>
      refine ⟨rfl, ?_⟩
      cases a with
      | voting =>
        exfalso
        obtain ⟨r, hr⟩ := (C09_empty_dataset_voting (α := Ex) ex_one_ne_zero _ _ _ d hd (env.clock (2 * i))).2 htr
        have h3' : votingRun d (env.clock (2 * i)) = _ := h3
        rw [hr] at h3'; cases h3'
      | iter cfg =>
        obtain ⟨hso, hcit⟩ := hsound c cfg (h1 ▸ hmem) h2
        have hmeas : MeasureOk cfg.iterator := by
          rw [hcit]
          intro th lim e
          cases hs <;> cases e
        have hd' : Dataset.mk' (getTriples g) false (finImp none) = .ok d := hd
        rcases C63_exceptions htr hd' hso hmeas (.inl h3) with ⟨-, ms, th, lim, e⟩ | ⟨e, -⟩
        · rw [hcit] at e
          cases hs with
          | fixed k me th' hk => cases e
          | convergence m' limit x y hx hy => rfl
        · cases e

/-- **C74.** The answer then always complains about the parameter `iterator` if voting is
among the selected algorithms, even alone, although the user did not enter any parameter;
only the initial value of the selection, a string, would prevent it. -/
theorem C74_voting_message {env : Env X .exact} {prev : Option Text} {it : IterCfg Ex}
    {l : List (Nat × Nat × X)} {d : Dataset Nat Nat X Ex} {labels : List Text}
    {data : Dict Text (WebOut X Ex)} {messages : List Text}
    (h : Answer env prev [("iterator".toList, .iterator it)] l d labels (.ok data messages)) :
    ("voting".toList ∈ labels ↔ "Ignored parameters for 'MajorityVoting': iterator".toList ∈ messages) ∧
    (∀ strInt (toFixed : Ex → Text) s,
      formParams strInt toFixed (.one "voting".toList) s [] = .ok none) := by
  refine ⟨?_, fun _ _ _ => rfl⟩
  generalize hr : Response.ok data messages = resp at h
  cases h with
  | error => cases hr
  | ok data' mss h1 h2 h3 h4 hms =>
    cases hr
    have hone : ∀ label ms, (∃ c, label = (labelName c).toList ∧
        Messages [("iterator".toList, PVal.iterator it)] c ms) →
        (label = "voting".toList → ms = ["Ignored parameters for 'MajorityVoting': iterator".toList]) ∧
        ("Ignored parameters for 'MajorityVoting': iterator".toList ∈ ms → label = "voting".toList) := by
      rintro label ms ⟨c, rfl, names, hp, hk, hm⟩
      have hk' : ∀ k, k ∈ names ↔ k = "iterator".toList ∧ ¬ Accepts c k := by
        intro k; rw [hk]; simp [Dict.keys]
      constructor
      · intro e
        obtain rfl := labelName_injective (e := .voting) e
        have : names = ["iterator".toList] := by
          have hmem : "iterator".toList ∈ names := (hk' _).2 ⟨rfl, by
            rintro ⟨n, hn, -⟩; simp [accepts] at hn⟩
          have hall : ∀ k ∈ names, k = "iterator".toList := fun k h => ((hk' k).1 h).1
          cases names with
          | nil => simp at hmem
          | cons a as =>
            obtain rfl := hall a (by simp)
            cases as with
            | nil => rfl
            | cons b bs =>
              obtain rfl := hall b (by simp)
              have := (List.pairwise_cons.1 hp).1 _ (by simp : "iterator".toList ∈ _)
              exact absurd this (lt_irrefl _)
        rw [hm, this]
        rfl
      · intro hin
        rw [hm] at hin
        split at hin
        · simp at hin
        · rename_i hnn
          cases c with
          | voting => rfl
          | _ =>
            exfalso
            apply hnn
            rw [List.eq_nil_iff_forall_not_mem]
            intro k hkm
            obtain ⟨rfl, hna⟩ := (hk' k).1 hkm
            exact hna ⟨"iterator", by decide, rfl⟩
    constructor
    · intro hv
      obtain ⟨i, hi, e⟩ := List.getElem_of_mem hv
      have hlen := hms.length_eq
      have := hms.get (i := i) hi (by omega)
      have hm := (hone _ _ this).1 (by simpa using e)
      refine List.mem_flatten.2 ⟨_, List.get_mem mss ⟨i, by omega⟩, ?_⟩
      rw [hm]; simp
    · intro hm
      obtain ⟨ms, hms', hin⟩ := List.mem_flatten.1 hm
      obtain ⟨i, hi, e⟩ := List.getElem_of_mem hms'
      have hlen := hms.length_eq
      have := hms.get (i := i) (by omega) hi
      have hl := (hone _ _ this).2 (by
        have : mss.get ⟨i, hi⟩ = ms := e
        rw [this]; exact hin)
      rw [← hl]
      exact List.get_mem labels ⟨i, by omega⟩

/-- **C74.** UnboundedSums cannot be used from the form with a fixed number of iterations:
the server raises `AttributeError` for every matrix with an entry. -/
theorem C74_usums {env : Env X .exact} (henv : WebEnvOk env) {strInt : Int → Text} {toFixed : Ex → Text}
    {strVal : X → Text} (hf : FormOk env strInt toFixed strVal) {m n : Nat} {g : Grid X} (hm : 0 < m)
    (hn : 2 ≤ n) (hg : Dims m n g) (hne : ∃ i j v, Holds g i j v) (rest : List Text) (k : Nat) (hk : k ≤ 200)
    (measure : Text) (th : Option Ex) (compare : Bool) (previous : Option Text) :
    ∃ req, formRequest strInt toFixed strVal (.many ("usums".toList :: rest)) g compare previous
        ⟨"fixed".toList, some k, measure, th⟩ [] = .ok req ∧
      webRun env req = .error .attributeError := by
  obtain ⟨t, p1, p2, -⟩ := C74_parameters hf henv.newline (.fixed k measure th hk)
    (.many ("usums".toList :: rest)) nofun []
  have hgne : g ≠ [] := by
    rintro rfl
    have := hg.1
    simp at this
    omega
  refine ⟨_, by unfold formRequest; rw [p1]; rfl, ?_⟩
  refine C52_unhandled_usums henv _ rest rfl _ rfl (by rw [asCsv_eq strVal hgne]; simp) _ (p2 rfl) k rfl g ?_ ?_
  · rw [sent_clean hf.values hf.noUnderscore g]
    exact C73_sent strVal env.parseValue hf.values hm hg (.inl hn)
  · obtain ⟨i, j, v, h⟩ := hne
    exact List.ne_nil_of_mem ((mem_getTriples g i j v).2 h)

/-- **C74.** What the browser keeps of an answer is a result that the server accepts as
previous results (hypothesis `hprev` of `C74_answered`), and contains the scores of that
answer; it is kept exactly if one algorithm was selected. -/
theorem C74_previous {env : Env X .exact} (henv : WebEnvOk env) (stringify : WJson Ex → Text)
    {prev : Option Text} {l : List (Nat × Nat × X)} {d : Dataset Nat Nat X Ex} {ps : Dict Text (PVal Ex)}
    {labels : List Text} {data : Dict Text (WebOut X Ex)} {messages : List Text}
    (h : Answer env prev ps l d labels (.ok data messages)) :
    ((∀ label, labels ≠ [label]) → nextPrevious env stringify (.many labels) data = .ok none) ∧
    ∀ label, labels = [label] → ∃ j r c a, Constructed ps c a ∧ label = (labelName c).toList ∧
      a.run d env.fuel (env.clock 0) = .ok r ∧
      nextPrevious env stringify (.many labels) data = .ok (some (stringify j)) ∧
      Earlier j (r.trust.map fun p => (env.strNat p.1, p.2))
        (r.belief.map fun p => (env.strNat p.1, p.2.map fun q => (env.strVal q.1, q.2)))
        r.time (r.iterations.map Arith.ofNat) := by
  constructor
  · intro hl
    unfold nextPrevious
    split
    · rename_i label e
      cases e
      exact absurd rfl (hl _)
    · rfl
  · rintro label rfl
    generalize hr : Response.ok data messages = resp at h
    cases h with
    | error => cases hr
    | ok data' mss h1 h2 h3 h4 hms =>
      cases hr
      have hk : label ∈ data.keys := (h3 label).2 (by simp)
      obtain ⟨out, ho⟩ := mem_keys_iff.1 hk
      obtain ⟨i, c, a, r, e1, -, e3, e4, hp⟩ := h4 label out ho
      have hi : i = 0 := by
        cases i with
        | zero => rfl
        | succ i => simp at e1
      subst hi
      have hrun : a.run d env.fuel (env.clock 0) = .ok r := hp.run
      have hw := C47_runs a d env.fuel _ r hrun
      refine ⟨storedResults env out, r, c, a, e4, e3, hrun, ?_, ?_⟩
      · unfold nextPrevious
        dsimp only
        rw [ho]
      · have g1 : out.fields.get? .trust = some (.trust r.trust) := by
          obtain ⟨v, hv⟩ := (hp.keys .trust).2 nofun
          have := hp.values _ _ hv
          cases this; exact hv
        have g2 : out.fields.get? .belief = some (.belief r.belief) := by
          obtain ⟨v, hv⟩ := (hp.keys .belief).2 nofun
          have := hp.values _ _ hv
          cases this; exact hv
        have g3 : out.fields.get? .time = some (.time r.time) := by
          obtain ⟨v, hv⟩ := (hp.keys .time).2 nofun
          have := hp.values _ _ hv
          cases this; exact hv
        have g4 : out.fields.get? .iterations = some (.iterations r.iterations) := by
          obtain ⟨v, hv⟩ := (hp.keys .iterations).2 nofun
          have := hp.values _ _ hv
          cases this; exact hv
        have hcur := current_eq env henv.strNat henv.strVal hw
        have hs : storedResults env out = .obj [("trust".toList, (currentResults env r).trust),
            ("belief".toList, (currentResults env r).belief), ("time".toList, (currentResults env r).time),
            ("iterations".toList, (currentResults env r).iterations)] := by
          unfold storedResults
          simp only [List.filterMap_cons, List.filterMap_nil, g1, g2, g3, g4, Option.bind_some, storedField]
          rfl
        refine ⟨⟨_, hs, ?_, ?_, ?_, ?_⟩, ?_, ?_, ?_⟩
        · rw [hcur]; rfl
        · rw [hcur]
          show some _ = some _
          unfold rawOf texts numsObj
          simp [List.map_map, Function.comp_def]
        · rw [hcur]; rfl
        · rw [hcur]
          cases r.iterations <;> rfl
        · have : Dict.keys (r.trust.map fun p => (env.strNat p.1, p.2)) = r.trust.keys.map env.strNat := by
            simp [Dict.keys, List.map_map, Function.comp_def]
          rw [this]
          exact hw.1.map henv.strNat
        · have : Dict.keys (r.belief.map fun p => (env.strNat p.1, p.2.map fun q => (env.strVal q.1, q.2)))
              = r.belief.keys.map env.strNat := by
            simp [Dict.keys, List.map_map, Function.comp_def]
          rw [this]
          exact hw.2.1.map henv.strNat
        · intro v d' hd'
          obtain ⟨q, hq, e⟩ := List.mem_map.1 (mem_of_lookup_some hd')
          cases e
          have : Dict.keys (q.2.map fun q => (env.strVal q.1, q.2)) = q.2.keys.map env.strVal := by
            simp [Dict.keys, List.map_map, Function.comp_def]
          rw [this]
          exact (hw.2.2 q.1 q.2 (lookup_some_of_mem hw.2.1 hq)).map henv.strVal

end

/-! ### Examples -/
section
open Toy

/-- Decimal numerals. -/
def decimal : Nat → Nat → Text
  | 0, _ => []
  | f + 1, n => if n < 10 then [Char.ofNat (n + 48)] else decimal f (n / 10) ++ [Char.ofNat (n % 10 + 48)]

def demoStrInt (n : Int) : Text :=
  match n with
  | .ofNat n => decimal (n + 1) n
  | .negSucc n => '-' :: decimal (n + 2) (n + 1)

theorem decimal_numeral (f n : Nat) (h : n < f) : Numeral asciiDigit (decimal f n) n := by
  have hd : ∀ d < 10, asciiDigit (Char.ofNat (d + 48)) = some d := by decide
  induction f generalizing n with
  | zero => omega
  | succ f ih =>
    unfold decimal
    split
    · exact .one _ _ (hd n (by omega))
    · have := Numeral.more _ _ _ _ (ih (n / 10) (by omega)) (hd (n % 10) (by omega))
      rwa [show 10 * (n / 10) + n % 10 = n by omega] at this

/-- The hypothesis about texts is satisfiable. -/
theorem demo_form : FormOk demoEnv demoStrInt (fun _ => "2".toList) digit where
  numeral := fun n => decimal_numeral (n + 1) n (by omega)
  negative := by
    intro n hn
    cases n with
    | zero => omega
    | succ n => rfl
  hundred := by decide
  digits := by
    intro c d h
    have h' : asciiDigit c = some d := h
    unfold asciiDigit at h'
    split at h'
    · rename_i hc
      constructor
      · unfold isBlank
        simp only [decide_eq_false_iff_not]
        intro hw
        have h1 : 48 ≤ c.toNat := hc.1
        have h2 : c.toNat ≤ 57 := hc.2
        simp only [whitespaceCodes, List.mem_cons, List.not_mem_nil, or_false] at hw
        omega
      · rintro rfl
        exact absurd hc (by decide)
    · cases h'
  fixedPoint := fun _ => ⟨by decide, by decide⟩
  values := digit_roundTrips
  noUnderscore := by decide

def demoGrid : Grid (Fin 10) := [[some 1, some 2], [some 3, none]]

/-- Sums and AverageLog on it, 20 iterations, compared with earlier results. -/
example : ∃ req, ∃ d : Dataset Nat Nat (Fin 10) Ex, ∃ resp, formRequest demoStrInt (fun _ => "2".toList) digit
      (.many ["sums".toList, "average_log".toList]) demoGrid true (some "r".toList)
      (⟨"fixed".toList, some 20, "l1".toList, none⟩ : IterSettings Ex) [] = .ok req ∧
    Dataset.mk' (getTriples demoGrid) false none = .ok d ∧ webRun demoEnv req = .ok resp ∧
    ∃ data messages, resp = .ok data messages ∧
      ∀ label, label ∈ data.keys ↔ label ∈ ["sums".toList, "average_log".toList] := by
  have hh : ∀ j v, demoGrid[0]? = some [some 1, some 2] ∧ [some (1 : Fin 10), some 2][j]? = some (some v) →
      Holds demoGrid 0 j v := fun j v h => ⟨_, h.1, h.2⟩
  obtain ⟨req, d, resp, h1, h2, h3, -, h4⟩ := C74_answered demoEnv_ok demo_form (m := 2) (n := 2) (g := demoGrid)
    (by decide) (by decide) ⟨rfl, by unfold Rect demoGrid; decide⟩ ⟨0, 0, 1, hh 0 1 ⟨rfl, rfl⟩⟩
    ["sums".toList, "average_log".toList] (by simp) (by
      intro t ht
      simp only [List.mem_cons, List.not_mem_nil, or_false] at ht
      rcases ht with rfl | rfl
      · exact ⟨.sums, rfl, nofun, nofun⟩
      · exact ⟨.averageLog, rfl, nofun, fun _ => ⟨0, 0, 1, 1, 2, by decide, hh 0 1 ⟨rfl, rfl⟩, hh 1 2 ⟨rfl, rfl⟩⟩⟩)
    (.fixed 20 "l1".toList none (by decide)) true (some "r".toList) (by
      intro t ht
      cases ht
      exact ⟨_, [("i".toList, Ex.fin 1)], [("i".toList, [("iii".toList, Ex.fin 1)])], Ex.fin 0, none, demo_previous,
        ⟨_, rfl, rfl, rfl, rfl, rfl⟩, by decide, by decide, by
          intro v b h
          have := mem_of_lookup_some h
          simp only [List.mem_singleton, Prod.mk.injEq] at this
          rw [this.2]; decide⟩)
  refine ⟨req, d, resp, h1, h2, h3, ?_⟩
  rcases h4 with h4 | ⟨-, h4⟩
  · exact h4
  · exact absurd h4 (by decide)

/-- The convergence settings of the form. -/
example : SettingsMean demoEnv (fun _ => "2".toList) ⟨"convergence".toList, none, "l2".toList, some (Ex.fin 2)⟩
    (.conv (some .l2) (Ex.fin 2) 100) :=
  .convergence .l2 none _ _ (by decide) demo_float

end
end TD
