import Verif.Model.Canvas
import Verif.Model.Result
/-!
# The page with the results: the service of `app.js`, its results component and `results.html`

JavaScript objects are lists of their entries in the order in which JavaScript enumerates them.
AngularJS is modelled by what its directives and filters do with the expressions of the template
(`ng-repeat`, `orderBy`, `number`, `ng-class`).
-/

namespace TD

/-- The scores of one algorithm in an answer, as read by the page (app.js:67, results.html). -/
structure JsScores where
  trust : List (Text × ℝ)
  belief : List (Text × List (Text × ℝ))
  time : ℝ
  iterations : Option ℝ

/-- The entry "diff" of an answer (results.html:61-66, 105-109). -/
structure JsDiff where
  trust : List (Text × ℝ)
  belief : List (Text × List (Text × ℝ))

/-- `response.data.data[label]` (app.js:67); the documents are parsed (app.js:87-93). -/
structure JsOut where
  scores : JsScores
  graph : Json
  animation : Option Json
  diff : Option JsDiff

/-- `Math.max.apply(null, l)` (app.js:101-113); `none` is `-Infinity`. -/
noncomputable def jsMax : List ℝ → Option ℝ
  | [] => none
  | x :: l => some (l.foldl max x)

/-- An entry of `self.results`: as received, or after the loop of app.js:86-134 has replaced the
objects `trust` and `belief[variable]` by arrays and added the maxima. -/
inductive JsEntry
  | received (o : JsOut)
  | ready (o : JsOut) (maxTrust : Option ℝ) (maxBelief : List (Text × Option ℝ))

/-- `this.state` -/
inductive PageStatus
  | empty
  | loading
  | hasResults
deriving DecidableEq

/-- The service `tdService` (app.js:18-31), the error shown in the form (app.js:169), the requests
in flight, the animators (app.js:9-14) and all calls made on the canvases. -/
structure JsPage where
  status : PageStatus := .empty
  results : Option (List (Text × JsEntry)) := none
  shown : Option Text := none
  messages : List Text := []
  /-- without imagery (app.js:80); of the rest, what the server reads -/
  previous : Option JsScores := none
  error : Option Text := none
  waiting : List Selection := []
  animators : Text → JsAnimator := fun _ => ⟨none, 0⟩
  graphCalls : Text → List CanvasCall := fun _ => []
  animationCalls : Text → List CanvasCall := fun _ => []

/-- `Object.keys(self.results)[0]`, if `self.shown_results` is null or no key (app.js:70-72). -/
def nextShown (shown : Option Text) (labels : List Text) : Option Text :=
  match shown with
  | some s => if s ∈ labels then some s else labels.head?
  | none => labels.head?

/-- The previous results (app.js:74-84); a result that is missing cannot be parsed again. -/
def nextKept (sel : Selection) (data : List (Text × JsOut)) : Except JsErr (Option JsScores) :=
  match sel with
  | .many [label] => match Dict.get? data label with
    | none => .error .typeError
    | some o => .ok (some o.scores)
  | _ => .ok none

/-- The maxima and the arrays (app.js:98-133). -/
noncomputable def JsOut.ready (o : JsOut) : JsEntry :=
  .ready o (jsMax (o.scores.trust.map Prod.snd))
    (o.scores.belief.map fun p => (p.1, jsMax (p.2.map Prod.snd)))

/-- `self.results[alg] = ..` -/
def JsPage.setEntry (p : JsPage) (alg : Text) (e : JsEntry) : JsPage :=
  { p with results := p.results.map fun l => l.map fun x => if x.1 = alg then (alg, e) else x }

/-- `draw_graph` on the canvas of the algorithm (app.js:88-90). -/
def JsPage.drawGraph (p : JsPage) (alg : Text) (calls : List CanvasCall) : JsPage :=
  { p with graphCalls := Function.update p.graphCalls alg (p.graphCalls alg ++ calls) }

/-- The animator of the algorithm and the calls on its canvas. -/
def JsPage.setAnimator (p : JsPage) (alg : Text) (a : JsAnimator) (calls : List CanvasCall) : JsPage :=
  { p with
    animators := Function.update p.animators alg a
    animationCalls := Function.update p.animationCalls alg (p.animationCalls alg ++ calls) }

/-- The state of an animator whose `load` (animator.js:7-13) failed. -/
def failedAnimator (a : JsAnimator) (doc : Json) : JsAnimator :=
  match Js.getArr doc "frames" with
  | .ok frames => ⟨some frames, 0⟩
  | .error _ => a

/-- The animation of an algorithm, if it has one (app.js:91-95).  Simplification: if `load` fails
the calls made before are not recorded. -/
noncomputable def JsPage.loadAnimation (measure : ℝ → Text → ℝ) (p : JsPage) (alg : Text) :
    Option Json → JsPage × Option JsErr
  | none => (p, none)
  | some doc => match (p.animators alg).op measure (.load doc) with
    | .ok (a, calls) => (p.setAnimator alg a calls, none)
    | .error e => (p.setAnimator alg (failedAnimator (p.animators alg) doc) [], some e)

/-- The loop over the algorithms of an answer (app.js:86-134); an exception ends it. -/
noncomputable def JsPage.showAll (measure : ℝ → Text → ℝ) : JsPage → List (Text × JsOut) → JsPage × Option JsErr
  | p, [] => (p, none)
  | p, (alg, o) :: rest =>
    match jsDrawGraph measure o.graph with
    | .error e => (p, some e)
    | .ok calls =>
      match (p.drawGraph alg calls).loadAnimation measure alg o.animation with
      | (p, some e) => (p, some e)
      | (p, none) => showAll measure (p.setEntry alg o.ready) rest

/-- The handler of a successful answer to a request for `sel` (app.js:64-136). -/
noncomputable def JsPage.received (measure : ℝ → Text → ℝ) (p : JsPage) (sel : Selection)
    (data : List (Text × JsOut)) (messages : List Text) : JsPage × Option JsErr :=
  let p : JsPage := { p with
    results := some (data.map fun x => (x.1, .received x.2))
    messages := messages
    status := .hasResults
    shown := nextShown p.shown (data.map Prod.fst) }
  match nextKept sel data with
  | .error e => (p, some e)
  | .ok previous => ({ p with previous := previous }).showAll measure data

/-- `self.error[0].toUpperCase() + self.error.slice(1)` (app.js:285). -/
def capitalise (upper : Char → Char) : Text → Text
  | [] => []
  | c :: t => upper c :: t

/-- The handlers of an error (app.js:137-139, 281-291); `none` is an answer without an error
message. -/
def JsPage.refused (upper : Char → Char) (p : JsPage) (message : Option Text) : JsPage :=
  { p with
    status := .empty
    error := some (match message with
      | some t => capitalise upper t
      | none => "Unknown error :(".toList) }

/-- What happens on the page. -/
inductive PageEvent
  /-- the form is submitted (app.js:272-279, 53-60, form.html:1-5); it is disabled while loading -/
  | submit (sel : Selection)
  /-- the answer to the `i`-th request in flight arrives -/
  | answer (i : Nat) (data : List (Text × JsOut)) (messages : List Text)
  /-- or an error -/
  | failure (i : Nat) (message : Option Text)
  /-- a tab is selected (results.html:14-22) -/
  | tab (label : Text)
  /-- an animation is controlled -/
  | animation (label : Text) (o : JsAnimatorOp)

/-- What the user can do with an animator: the slider runs from 0 to the number of frames minus one
(results.html:149-155). -/
def JsAnimator.offers (a : JsAnimator) : JsAnimatorOp → Prop
  | .load _ => False
  | .previous => True
  | .next => True
  | .slide i => 0 ≤ i ∧ ∃ fs, a.frames = some fs ∧ i < fs.length

open Classical in
/-- Effect of an event, if it can happen; tabs and animations can be used while results are shown.  An exception in a handler is logged by the browser. -/
noncomputable def JsPage.event (measure : ℝ → Text → ℝ) (upper : Char → Char) (p : JsPage) :
    PageEvent → Option JsPage
  | .submit sel =>
    if p.status = .loading then none
    else some { p with
      status := .loading
      error := none
      waiting := p.waiting ++ [sel] }
  | .answer i data messages => match p.waiting[i]? with
    | none => none
    | some sel => some (({ p with waiting := p.waiting.eraseIdx i }).received measure sel data messages).1
  | .failure i message => match p.waiting[i]? with
    | none => none
    | some _ => some (({ p with waiting := p.waiting.eraseIdx i }).refused upper message)
  | .tab label => match p.results with
    | none => none
    | some l => if p.status = .hasResults ∧ label ∈ l.map Prod.fst then some { p with shown := some label } else none
  | .animation label o =>
    if p.status = .hasResults ∧ (p.animators label).offers o then
      match (p.animators label).op measure o with
      | .error _ => some p
      | .ok (a, calls) => some (p.setAnimator label a calls)
    else none

/-! ### Sorting -/

/-- The two tables (app.js:316-325). -/
inductive ResultTable
  | trust
  | belief
deriving DecidableEq

/-- Their columns. -/
inductive ResultCol
  | source
  | trust
  | val
  | belief
deriving DecidableEq

/-- `icon_names` (app.js:327-331) -/
inductive SortIcon
  | unsorted
  | ascending
  | descending
deriving DecidableEq

/-- `this.sorting` and `this.sort_icons` (app.js:316-338). -/
structure SortState where
  col : ResultTable → ResultCol := fun
    | .trust => .source
    | .belief => .val
  ascending : ResultTable → Bool := fun _ => true
  icon : ResultCol → SortIcon := fun _ => .unsorted

/-- `this.sort` (app.js:366-380). -/
def SortState.sort (s : SortState) (table : ResultTable) (col : ResultCol) : SortState :=
  if s.col table ≠ col then
    { col := Function.update s.col table col
      ascending := Function.update s.ascending table false
      icon := Function.update (Function.update s.icon (s.col table) .unsorted) col .descending }
  else
    let asc := !s.ascending table
    { s with
      ascending := Function.update s.ascending table asc
      icon := Function.update s.icon col (if asc then .ascending else .descending) }

/-! ### Tables -/

/-- What the browser and AngularJS provide: `number` is the conversion of strings to numbers
(`none` is `NaN`), `number7` the filter `number:7`, `str` the conversion of numbers to strings. -/
structure JsEnv where
  number : Text → Option ℝ
  number7 : ℝ → Text
  str : ℝ → Text

/-- CSS classes of differences (app.js:344-352) -/
inductive DiffClass
  | success
  | error
  | gray
deriving DecidableEq

/-- `getDiffClass` (app.js:344-352); comparisons with `undefined` are false. -/
noncomputable def diffClass : Option ℝ → DiffClass
  | none => .gray
  | some d => if 0 < d then .success else if d < 0 then .error else .gray

/-- `formatDiff` (app.js:354-360) applied to the string given by `number:7`. -/
noncomputable def formatDiff (env : JsEnv) : Option Text → Text
  | none => []
  | some t => match env.number t with
    | none => "(-NaN)".toList
    | some y => "(".toList ++ (if 0 ≤ y then "+".toList else "-".toList) ++ env.str |y| ++ ")".toList

/-- A row of a table: the key, the number shown for it in the trust table (`(x.source - 0) + 1`,
results.html:56), the score (shown by `number:7`), whether it is bold, and its difference. -/
structure ResultRow where
  key : Text
  number : Option ℝ
  score : ℝ
  bold : Bool
  difference : Text
  differenceClass : DiffClass

/-- `x | orderBy:'+col'` or `'-col'`: a stable sort; strings are compared as such (they have no
upper case letters). -/
noncomputable def orderBy (asc : Bool) (byScore : Bool) (l : List (Text × ℝ)) : List (Text × ℝ) :=
  let lt : Text × ℝ → Text × ℝ → Bool := fun a b =>
    if byScore then decide (a.2 < b.2) else decide (a.1 < b.1)
  pySorted (fun a b => if asc then lt a b else lt b a) l

/-- A row (results.html:55-68, 97-112). -/
noncomputable def resultRow (env : JsEnv) (max : Option ℝ) (diff : List (Text × ℝ)) (x : Text × ℝ) : ResultRow :=
  { key := x.1
    number := (env.number x.1).map (· + 1)
    score := x.2
    bold := decide (some x.2 = max)
    difference := formatDiff env ((Dict.get? diff x.1).map env.number7)
    differenceClass := diffClass (Dict.get? diff x.1) }

/-- The table of trust scores of an algorithm (results.html:54-69); `orderBy` fails for an object
that is no array. -/
noncomputable def trustTable (env : JsEnv) (s : SortState) : JsEntry → Except JsErr (List ResultRow)
  | .received _ => .error .typeError
  | .ready o maxTrust _ =>
    .ok ((orderBy (s.ascending .trust) (decide (s.col .trust = .trust)) o.scores.trust).map
      (resultRow env maxTrust ((o.diff.map JsDiff.trust).getD [])))

/-- The table of belief scores of an algorithm (results.html:96-113): for each variable, the
number shown and its rows. -/
noncomputable def beliefTable (env : JsEnv) (s : SortState) :
    JsEntry → Except JsErr (List (Text × Option ℝ × List ResultRow))
  | .received _ => .error .typeError
  | .ready o _ maxBelief =>
    .ok (o.scores.belief.map fun p =>
      (p.1, (env.number p.1).map (· + 1),
        (orderBy (s.ascending .belief) (decide (s.col .belief = .belief)) p.2).map
          (resultRow env ((Dict.get? maxBelief p.1).getD none)
            ((Dict.get? ((o.diff.map JsDiff.belief).getD []) p.1).getD []))))

/-- `getAvailableAlgorithmLabels` (app.js:427-444): sorted by display name (`sort` compares
the strings `name,label`; the names consist of letters, so this is the order of the names). -/
def availableLabels (name : Text → Text) (p : JsPage) : List Text :=
  match p.results with
  | none => []
  | some l => pySorted (fun a b => decide (name a < name b)) (l.map Prod.fst)

end TD
