import Verif.Spec.Home
import Verif.Props.JsonText
import Verif.Props.Form
/-!
# C103: the home page offers exactly what the server accepts
-/

namespace TD
open Spec
variable {α : Type} {showNum : α → Text} {R : JsonReader α}

/-! ### Escaping -/

theorem closesScript_false {c : Char} (h : c ≠ '<') (r : Text) : closesScript (c :: r) = false := by
  unfold closesScript
  simp only [List.take_succ_cons, List.map_cons, decide_eq_false_iff_not]
  intro e
  have := (List.cons.inj e).1
  apply h
  have h2 : c.toLower.toNat = 60 := by rw [this]; rfl
  unfold Char.toLower at h2 this
  split at this
  · rename_i hc
    exfalso
    have h3 := congrArg Char.toNat this
    simp only [Char.toNat] at h3
    have h4 : (c.val + 32).toNat = 60 := h3
    have h5 := hc.1
    have h6 := hc.2
    rw [UInt32.toNat_add] at h4
    have h7 : (65 : Nat) ≤ c.val.toNat := h5
    have h8 : c.val.toNat ≤ 90 := h6
    have : (32 : UInt32).toNat = 32 := rfl
    omega
  · exact this

theorem htmlEscape_no_lt (c : Char) : '<' ∉ htmlEscape c := by
  unfold htmlEscape
  split_ifs with h1 h2 h3 h4 h5
  · decide
  · decide
  · decide
  · decide
  · decide
  · simpa using Ne.symm h3

theorem scriptContent_eq {t : Text} (h : '<' ∉ t) (after : Text) : scriptContent (t ++ "</script>".toList ++ after) = t := by
  induction t with
  | nil =>
    show scriptContent ('<' :: ("/script>".toList ++ after)) = []
    rw [scriptContent]
    exact if_pos rfl
  | cons c t ih =>
    rw [List.cons_append, List.cons_append, scriptContent, closesScript_false (fun e => h (by simp [e]))]
    have := ih fun e => h (by simp [e])
    rw [this]
    rfl

theorem replaceQuotes_cons {c : Char} (h : c ≠ '&') (r : Text) : replaceQuotes (c :: r) = c :: replaceQuotes r := by
  rw [replaceQuotes]
  intro r' e _
  exact h e

theorem replaceQuotes_escape (t : Text) : replaceQuotes (t.flatMap htmlEscape) = htmlText t := by
  induction t with
  | nil => simp [htmlText, replaceQuotes]
  | cons c t ih =>
    have ih' : replaceQuotes (t.flatMap htmlEscape) = t.flatMap fun c =>
      if c = '&' then "&amp;".toList else if c = '<' then "&lt;".toList else if c = '>' then "&gt;".toList
      else if c = '\'' then "&#39;".toList else [c] := ih
    unfold htmlText
    rw [List.flatMap_cons, List.flatMap_cons, ← ih']
    generalize t.flatMap htmlEscape = r
    unfold htmlEscape
    by_cases h1 : c = '&'
    · subst h1
      show replaceQuotes ('&' :: 'a' :: 'm' :: 'p' :: ';' :: r) = '&' :: 'a' :: 'm' :: 'p' :: ';' :: replaceQuotes r
      simp [replaceQuotes]
    by_cases h2 : c = '>'
    · subst h2
      show replaceQuotes ('&' :: 'g' :: 't' :: ';' :: r) = '&' :: 'g' :: 't' :: ';' :: replaceQuotes r
      simp [replaceQuotes]
    by_cases h3 : c = '<'
    · subst h3
      show replaceQuotes ('&' :: 'l' :: 't' :: ';' :: r) = '&' :: 'l' :: 't' :: ';' :: replaceQuotes r
      simp [replaceQuotes]
    by_cases h4 : c = '\''
    · subst h4
      show replaceQuotes ('&' :: '#' :: '3' :: '9' :: ';' :: r) = '&' :: '#' :: '3' :: '9' :: ';' :: replaceQuotes r
      simp [replaceQuotes]
    by_cases h5 : c = '"'
    · subst h5
      show replaceQuotes ('&' :: '#' :: '3' :: '4' :: ';' :: r) = '"' :: replaceQuotes r
      simp [replaceQuotes]
    simp only [h1, h2, h3, h4, h5, if_false]
    exact replaceQuotes_cons h1 r

/-- The text of a page, escaped and read by the application, is the text with `&`, `<`, `>` and `'` as HTML. -/
theorem pageData_eq (after t : Text) : pageData R (pageText after t) = parseJson R (htmlText t) := by
  unfold pageData pageText
  rw [scriptContent_eq, replaceQuotes_escape]
  intro h
  obtain ⟨c, -, h⟩ := List.mem_flatMap.1 h
  exact htmlEscape_no_lt c h

theorem htmlText_append (s t : Text) : htmlText (s ++ t) = htmlText s ++ htmlText t := by simp [htmlText]

theorem htmlText_plain {t : Text} (h : PlainText t) : htmlText t = t := by
  induction t with
  | nil => rfl
  | cons c t ih =>
    have hc := h c (by simp)
    have := ih fun d hd => h d (by simp [hd])
    unfold htmlText at this ⊢
    rw [List.flatMap_cons, this]
    simp [hc.1, hc.2.1, hc.2.2.1, hc.2.2.2]

theorem htmlText_cons {c : Char} (h : c ≠ '&' ∧ c ≠ '<' ∧ c ≠ '>' ∧ c ≠ '\'') (t : Text) : htmlText (c :: t) = c :: htmlText t := by
  show htmlText ([c] ++ t) = _
  rw [htmlText_append, htmlText_plain (t := [c])]
  · rfl
  · intro d hd; rw [List.mem_singleton.1 hd]; exact h

theorem hexDigit_plain {n : Nat} (h : n < 16) :
    hexDigit n ≠ '&' ∧ hexDigit n ≠ '<' ∧ hexDigit n ≠ '>' ∧ hexDigit n ≠ '\'' := by
  interval_cases n <;> decide

theorem uEscape_plain (n : Nat) : PlainText (uEscape n) := by
  intro c hc
  simp only [uEscape, List.mem_cons, List.not_mem_nil, or_false] at hc
  rcases hc with rfl | rfl | rfl | rfl | rfl | rfl
  · decide
  · decide
  all_goals exact hexDigit_plain (Nat.mod_lt _ (by norm_num))

theorem jsonChars_append (s t : Text) : jsonChars (s ++ t) = s.flatMap jsonChar ++ jsonChars t := by
  simp [jsonChars]

theorem htmlText_jsonChar (c : Char) : htmlText (jsonChar c) = (htmlText [c]).flatMap jsonChar := by
  by_cases h1 : c = '&'
  · subst h1; decide +kernel
  by_cases h2 : c = '<'
  · subst h2; decide +kernel
  by_cases h3 : c = '>'
  · subst h3; decide +kernel
  by_cases h4 : c = '\''
  · subst h4; decide +kernel
  have hp : PlainText [c] := fun d hd => by rw [List.mem_singleton.1 hd]; exact ⟨h1, h2, h3, h4⟩
  rw [htmlText_plain hp, List.flatMap_singleton, htmlText_plain]
  unfold jsonChar
  split_ifs
  case pos => unfold PlainText; decide
  case pos => unfold PlainText; decide
  case pos => unfold PlainText; decide
  case pos => unfold PlainText; decide
  case pos => unfold PlainText; decide
  case pos => unfold PlainText; decide
  case pos => unfold PlainText; decide
  case pos => exact hp
  case pos => exact uEscape_plain _
  case neg =>
    intro d hd
    rcases List.mem_append.1 hd with h | h
    · exact uEscape_plain _ d h
    · exact uEscape_plain _ d h

theorem htmlText_jsonChars (t : Text) : htmlText (jsonChars t) = jsonChars (htmlText t) := by
  unfold jsonChars
  rw [htmlText_append, htmlText_plain (t := ['"']) (by unfold PlainText; decide)]
  congr 1
  induction t with
  | nil => rfl
  | cons c t ih =>
    rw [List.flatMap_cons, htmlText_append, ih, htmlText_jsonChar]
    show _ = (htmlText ([c] ++ t)).flatMap jsonChar
    rw [htmlText_append, List.flatMap_append]

mutual
theorem htmlText_dumps : ∀ (v : WJson α), (∀ x ∈ numbers v, PlainText (showNum x)) →
    htmlText (pyDumps showNum v) = pyDumps showNum (mapStrings htmlText v)
  | .null, _ => by rw [mapStrings, pyDumps]; decide +kernel
  | .bool true, _ => by rw [mapStrings, pyDumps]; decide +kernel
  | .bool false, _ => by rw [mapStrings, pyDumps]; decide +kernel
  | .num x, h => by rw [mapStrings, pyDumps, htmlText_plain (h x (by simp [numbers]))]
  | .str t, _ => by rw [mapStrings, pyDumps, pyDumps, htmlText_cons (by decide), htmlText_jsonChars]
  | .arr [], _ => by rw [mapStrings, mapStringsList, pyDumps]; decide +kernel
  | .arr (x :: xs), h => by
    rw [mapStrings, mapStringsList, pyDumps, pyDumps, htmlText_cons (by decide), htmlText_append,
      htmlText_dumps x fun y hy => h y (by simp [numbers, numbersOfList, hy]),
      htmlText_items xs fun y hy => h y (by simp [numbers, numbersOfList, hy])]
  | .obj [], _ => by rw [mapStrings, mapStringsFields, pyDumps]; decide +kernel
  | .obj ((k, x) :: xs), h => by
    rw [mapStrings, mapStringsFields, pyDumps, pyDumps, htmlText_cons (by decide), htmlText_cons (by decide), htmlText_append,
      htmlText_jsonChars, htmlText_cons (by decide), htmlText_cons (by decide), htmlText_append,
      htmlText_dumps x fun y hy => h y (by simp [numbers, numbersOfFields, hy]),
      htmlText_fields xs fun y hy => h y (by simp [numbers, numbersOfFields, hy])]
theorem htmlText_items : ∀ (l : List (WJson α)), (∀ x ∈ numbersOfList l, PlainText (showNum x)) →
    htmlText (pyItems showNum l) = pyItems showNum (mapStringsList htmlText l)
  | [], _ => by rw [mapStringsList, pyItems]; decide +kernel
  | x :: xs, h => by
    rw [mapStringsList, pyItems, pyItems, htmlText_cons (by decide), htmlText_cons (by decide), htmlText_append,
      htmlText_dumps x fun y hy => h y (by simp [numbersOfList, hy]),
      htmlText_items xs fun y hy => h y (by simp [numbersOfList, hy])]
theorem htmlText_fields : ∀ (l : List (Text × WJson α)), (∀ x ∈ numbersOfFields l, PlainText (showNum x)) →
    htmlText (pyFields showNum l) = pyFields showNum (mapStringsFields htmlText l)
  | [], _ => by rw [mapStringsFields, pyFields]; decide +kernel
  | (k, x) :: xs, h => by
    rw [mapStringsFields, pyFields, pyFields, htmlText_cons (by decide), htmlText_cons (by decide), htmlText_cons (by decide),
      htmlText_append, htmlText_jsonChars, htmlText_cons (by decide), htmlText_cons (by decide), htmlText_append,
      htmlText_dumps x fun y hy => h y (by simp [numbersOfFields, hy]),
      htmlText_fields xs fun y hy => h y (by simp [numbersOfFields, hy])]
end

mutual
theorem numbers_mapStrings (f : Text → Text) : ∀ v : WJson α, numbers (mapStrings f v) = numbers v
  | .null => by rw [mapStrings]
  | .bool _ => by rw [mapStrings]
  | .num _ => by rw [mapStrings]
  | .str _ => by simp only [mapStrings, numbers]
  | .arr l => by rw [mapStrings, numbers, numbers, numbers_mapList f l]
  | .obj l => by rw [mapStrings, numbers, numbers, numbers_mapFields f l]
theorem numbers_mapList (f : Text → Text) : ∀ l : List (WJson α), numbersOfList (mapStringsList f l) = numbersOfList l
  | [] => by rw [mapStringsList]
  | x :: xs => by rw [mapStringsList, numbersOfList, numbersOfList, numbers_mapStrings f x, numbers_mapList f xs]
theorem numbers_mapFields (f : Text → Text) : ∀ l : List (Text × WJson α), numbersOfFields (mapStringsFields f l) = numbersOfFields l
  | [] => by rw [mapStringsFields]
  | (k, x) :: xs => by
    rw [mapStringsFields, numbersOfFields, numbersOfFields, numbers_mapStrings f x, numbers_mapFields f xs]
end

theorem numChar_plain {c : Char} (h : isNumChar c = true) : c ≠ '&' ∧ c ≠ '<' ∧ c ≠ '>' ∧ c ≠ '\'' := by
  refine ⟨?_, ?_, ?_, ?_⟩ <;> rintro rfl <;> exact absurd h (by decide)

/-- **C103**.  Data put into the page are read by the application as they are, except that `&`, `<`, `>` and `'` in strings stay
HTML (only quotation marks are restored): whatever the data are, they cannot break out of the `script` element. -/
theorem C103_page {v : WJson α} (h : ∀ x ∈ numbers v, Literal showNum R x) (after : Text) :
    pageData R (pageText after (pyDumps showNum v)) = some (mapStrings htmlText v) := by
  rw [pageData_eq, htmlText_dumps v fun x hx c hc => numChar_plain ((h x hx).chars c hc)]
  refine C102_round_trip ?_
  rw [numbers_mapStrings]
  exact h

theorem staticData_fixed : mapStrings htmlText (staticData α) = staticData α := by
  have hn : ∀ c : AlgLabel, htmlText c.name = c.name := by intro c; cases c <;> decide +kernel
  have hc : ∀ c : AlgLabel, htmlText c.className = c.className := by intro c; cases c <;> decide +kernel
  have h1 : htmlText "algorithm_labels".toList = "algorithm_labels".toList := by decide +kernel
  have h2 : htmlText "distance_measures".toList = "distance_measures".toList := by decide +kernel
  have h3 : htmlText "l1".toList = "l1".toList := by decide +kernel
  have h4 : htmlText "l2".toList = "l2".toList := by decide +kernel
  have h5 : htmlText "l_inf".toList = "l_inf".toList := by decide +kernel
  have h6 : htmlText "cosine".toList = "cosine".toList := by decide +kernel
  unfold staticData
  simp only [AlgLabel.all, List.map_cons, List.map_nil, mapStrings, mapStringsFields, mapStringsList, hn, hc, h1, h2, h3, h4, h5, h6]

/-- **C103**.  `DATA` of the application is the object that the server put into the page. -/
theorem C103_data (after : Text) : pageData R (homePage showNum after) = some (staticData α) := by
  unfold homePage
  rw [C103_page, staticData_fixed]
  intro x hx
  simp [staticData, AlgLabel.all, numbers, numbersOfFields, numbersOfList] at hx

theorem algorithmCls_ok_iff {t : Text} {c : AlgLabel} : algorithmCls t = .ok c ↔ t = c.name := by
  constructor
  · intro h
    unfold algorithmCls at h
    split at h
    · rename_i l hl
      cases h
      have := List.find?_some hl
      exact (of_decide_eq_true this).symm
    · cases h
  · rintro rfl
    cases c <;> rfl

/-- **C103**.  The algorithms that can be selected are those the server accepts, each with the name of its class. -/
theorem C103_algorithms (after : Text) {v : WJson α} (hv : pageData R (homePage showNum after) = some v) (label shown : Text) :
    OffersAlgorithm v label shown ↔ ∃ c, algorithmCls label = .ok c ∧ shown = c.className := by
  rw [C103_data] at hv
  cases hv
  have hm : member (staticData α) "algorithm_labels" = some (.obj (AlgLabel.all.map fun c => (c.name, .str c.className))) := rfl
  unfold OffersAlgorithm
  rw [hm]
  constructor
  · rintro ⟨l, e, h⟩
    cases e
    obtain ⟨c, -, e⟩ := List.mem_map.1 h
    cases e
    exact ⟨c, algorithmCls_ok_iff.2 rfl, rfl⟩
  · rintro ⟨c, h1, h2⟩
    refine ⟨_, rfl, List.mem_map.2 ⟨c, by cases c <;> decide, ?_⟩⟩
    rw [algorithmCls_ok_iff.1 h1, h2]

/-- **C103**.  The distance measures that can be selected are those the server accepts. -/
theorem C103_measures (after : Text) {v : WJson α} (hv : pageData R (homePage showNum after) = some v) (t : Text) :
    OffersMeasure v t ↔ ∃ m, readMeasure t = .ok m := by
  rw [C103_data] at hv
  cases hv
  have hm : member (staticData α) "distance_measures" = some (.arr (["l1", "l2", "l_inf", "cosine"].map fun m => .str m.toList)) := rfl
  unfold OffersMeasure
  rw [hm]
  constructor
  · rintro ⟨l, e, h⟩
    cases e
    obtain ⟨s, hs, e⟩ := List.mem_map.1 h
    cases e
    simp only [List.mem_cons, List.not_mem_nil, or_false] at hs
    rcases hs with rfl | rfl | rfl | rfl
    · exact ⟨.l1, rfl⟩
    · exact ⟨.l2, rfl⟩
    · exact ⟨.lInf, rfl⟩
    · exact ⟨.cosine, rfl⟩
  · rintro ⟨m, h⟩
    unfold readMeasure at h
    refine ⟨_, rfl, ?_⟩
    split_ifs at h with h1 h2 h3 h4
    · subst h1; simp
    · subst h2; simp
    · subst h3; simp
    · subst h4; simp

/-- **C103**.  A selected measure gives settings that the server understands (see C74). -/
theorem C103_settings {X : Type} {Q : Rounding} {env : Env X Q} {toFixed : FP Q → Text} (after : Text) {v : WJson α}
    (hv : pageData R (homePage showNum after) = some v) {t : Text} (ht : OffersMeasure v t) (limit : Option Int) (x y : FP Q)
    (h : '-' ∉ toFixed x) (hx : env.parseFloat (toFixed x) = some y) :
    ∃ m, readMeasure t = .ok m ∧ SettingsMean env toFixed ⟨"convergence".toList, limit, t, some x⟩ (.conv (some m) y 100) := by
  obtain ⟨m, hm⟩ := (C103_measures after hv t).1 ht
  refine ⟨m, hm, ?_⟩
  have e : t = (measureName m).toList := by
    unfold readMeasure at hm
    split_ifs at hm with h1 h2 h3 h4
    all_goals cases hm; assumption
  rw [e]
  exact .convergence m limit x y h hx

theorem webLoop_labels {X : Type} [DecidableEq X] {Q : Rounding} {env : Env X Q} {req : Request} {ps : Dict Text (PVal (FP Q))}
    {d : Dataset Nat Nat X (FP Q)} : ∀ (labels : List Text) (i : Nat) (data : Dict Text (WebOut X (FP Q))) (ms : List Text)
    {data' : Dict Text (WebOut X (FP Q))} {ms' : List Text}, webLoop env req ps d i labels data ms = .ok (.ok data' ms') →
    ∀ t ∈ data'.keys, t ∈ data.keys ∨ ∃ c, algorithmCls t = .ok c
  | [], i, data, ms, data', ms', h, t, ht => by
    cases h
    exact .inl ht
  | label :: rest, i, data, ms, data', ms', h, t, ht => by
    rw [webLoop] at h
    split at h
    · cases h
    · cases h
    · rename_i out ms0 ho
      rcases webLoop_labels rest _ _ _ h t ht with h1 | h1
      · rw [keys_set] at h1
        have : t ∈ data.keys ∨ t = label := by
          split_ifs at h1 with hk
          · exact .inl h1
          · rcases List.mem_append.1 h1 with h1 | h1
            · exact .inl h1
            · exact .inr (List.mem_singleton.1 h1)
        rcases this with h2 | h2
        · exact .inl h2
        · right
          subst h2
          unfold oneAlgorithm at ho
          split at ho
          · cases ho
          · cases ho
          · rename_i c a ign hpr
            unfold prepare at hpr
            simp only [bind, Except.bind] at hpr
            split at hpr
            · cases hpr
            · rename_i c' hc'
              exact ⟨c', hc'⟩
      · exact .inr h1

/-- **C103**.  Every algorithm in an answer has been offered by the page, so that `graph_drawers` and `animators`, which the page
makes for the algorithms it offers, have an entry for it (app.js:9-14, 83-93). -/
theorem C103_drawers {X : Type} [DecidableEq X] {Q : Rounding} (after : Text) {v : WJson α}
    (hv : pageData R (homePage showNum after) = some v) (env : Env X Q) (req : Request) {data : Dict Text (WebOut X (FP Q))}
    {messages : List Text} (h : webRun env req = .ok (.ok data messages)) :
    ∀ t ∈ data.keys, ∃ shown, OffersAlgorithm v t shown := by
  intro t ht
  have : ∃ c, algorithmCls t = .ok c := by
    obtain ⟨alg, csv, par, prev⟩ := req
    cases alg with
    | nil => cases csv <;> cases h
    | cons a as =>
      cases csv with
      | none => cases h
      | some t =>
        cases t with
        | nil => cases h
        | cons c cs =>
          simp only [webRun] at h
          split at h
          · cases h
          · cases h
          · rcases webLoop_labels _ _ _ _ h t ht with h1 | h1
            · simp [Dict.keys] at h1
            · exact h1
  obtain ⟨c, hc⟩ := this
  exact ⟨_, (C103_algorithms after hv t _).2 ⟨c, hc, rfl⟩⟩

/-- The selection the form starts with (app.js:172, 175-180) is offered. -/
example {v : WJson α} (after : Text) (hv : pageData R (homePage showNum after) = some v) :
    OffersAlgorithm v "sums".toList "Sums".toList ∧ OffersMeasure v "l2".toList :=
  ⟨(C103_algorithms after hv _ _).2 ⟨.sums, rfl, rfl⟩, (C103_measures after hv _).2 ⟨.l2, rfl⟩⟩

/-- A string that would end the element. -/
example : pageData jsSome (pageText "x".toList (pyDumps showSome (.arr [.str "</SCRIPT>\"&#34;".toList]))) =
    some (.arr [.str "&lt;/SCRIPT&gt;\"&amp;#34;".toList]) := by
  rw [C103_page]
  · simp only [mapStrings, mapStringsList]
    congr 4
  · intro x hx
    simp [numbers, numbersOfList] at hx

end TD
