import Verif.Model.Web
/-!
# `truthdiscovery/client/web/static/app/*.js` and `templates/form.html`

The part of the browser application that edits the matrix, builds requests, keeps the
previous results and selects the frame of an animation.  Angular, the canvas and HTTP are
not modelled.
-/

namespace TD

/-- Exceptions of the JavaScript code. -/
inductive JsErr
  /-- a property of `undefined` or `null` was used -/
  | typeError
  /-- `throw "All rows must have the same length"` (matrix.js:66) -/
  | rowLength
  /-- `IndexSizeError` of the canvas -/
  | indexSize
  /-- `throw "unknown iteration type: "` (app.js:157) -/
  | iterationType
deriving DecidableEq

section
variable {X : Type}

/-- `Matrix.prototype.addSource` (matrix.js:10-16); `null` entries are `none`. -/
def jsAddSource (g : Grid X) : Except JsErr (Grid X) :=
  match g with
  | [] => .error .typeError
  | row :: _ => .ok (g ++ [row.map fun _ => none])

/-- `Matrix.prototype.addVariable` (matrix.js:18-22). -/
def jsAddVariable (g : Grid X) : Grid X := g.map fun row => row ++ [none]

/-- `Matrix.prototype.deleteSource` (matrix.js:27-29). -/
def jsDeleteSource (g : Grid X) (i : Nat) : Grid X := g.eraseIdx i

/-- `Matrix.prototype.deleteVariable` (matrix.js:34-38). -/
def jsDeleteVariable (g : Grid X) (j : Nat) : Grid X := g.map fun row => row.eraseIdx j

/-- `Matrix.prototype.clear` (matrix.js:43-49). -/
def jsClear (g : Grid X) : Grid X := g.map fun row => row.map fun _ => none

/-- The input field of a cell (form.html:54-56); an empty field is `none`. -/
def jsSetCell (g : Grid X) (i j : Nat) (v : Option X) : Grid X := g.modify i fun row => row.set j v

/-- `Matrix.prototype.parseStringValue` (matrix.js:51-53); `parseFloat` gives `none` for NaN,
`isZero` holds for the number zero, the only other falsy number. -/
def jsParseValue (parseFloat : Text → Option X) (isZero : X → Bool) (val : Text) : Option X :=
  match parseFloat val with
  | none => none
  | some x => if isZero x then none else some x

/-- The loop over the lines (matrix.js:63-72). -/
def jsLoadRows (parseFloat : Text → Option X) (isZero : X → Bool) (numCols : Nat) :
    List Text → Except JsErr (Grid X)
  | [] => .ok []
  | line :: lines =>
    let row := split ',' line
    if row.length ≠ numCols then .error .rowLength
    else do
      let rest ← jsLoadRows parseFloat isZero numCols lines
      return row.map (jsParseValue parseFloat isZero) :: rest

/-- `Matrix.prototype.loadFromCSV` (matrix.js:58-74). -/
def jsLoadCsv (parseFloat : Text → Option X) (isZero : X → Bool) (csv : Text) :
    Except JsErr (Grid X) :=
  match split '\n' csv with
  | [] => .error .typeError
  | line :: lines => jsLoadRows parseFloat isZero (split ',' line).length (line :: lines)

/-- `Matrix.prototype.asCSV` (matrix.js:79-87); `str` prints a number, `join` prints `null` as
the empty text. -/
def jsAsCsv (str : X → Text) (g : Grid X) : Text :=
  g.flatMap fun row => joinWith ',' (row.map fun v => match v with
    | none => []
    | some v => str v) ++ ['\n']

/-- The actions of the user on the matrix (form.html:33-95). -/
inductive Edit (X : Type)
  | addSource
  | addVariable
  | deleteSource (i : Nat)
  | deleteVariable (j : Nat)
  | clear
  | setCell (i j : Nat) (v : Option X)
  | loadCsv (csv : Text)
  | loadPreset (g : Grid X)

/-- The buttons and fields shown for a matrix: rows can only be deleted if there are two
(form.html:48-51), columns if the first row has two entries (form.html:37-40). -/
def Edit.shown (presets : List (Grid X)) (g : Grid X) : Edit X → Prop
  | .addSource => True
  | .addVariable => True
  | .deleteSource i => i < g.length ∧ 1 < g.length
  | .deleteVariable j => ∃ row ∈ g.head?, j < row.length ∧ 1 < row.length
  | .clear => True
  | .setCell i j _ => ∃ row, g[i]? = some row ∧ j < row.length
  | .loadCsv _ => True
  | .loadPreset p => p ∈ presets

/-- The effect of an action; a text that cannot be loaded leaves the matrix as it is
(app.js:248-256). -/
def Edit.apply (parseFloat : Text → Option X) (isZero : X → Bool) (g : Grid X) :
    Edit X → Except JsErr (Grid X)
  | .addSource => jsAddSource g
  | .addVariable => .ok (jsAddVariable g)
  | .deleteSource i => .ok (jsDeleteSource g i)
  | .deleteVariable j => .ok (jsDeleteVariable g j)
  | .clear => .ok (jsClear g)
  | .setCell i j v => .ok (jsSetCell g i j v)
  | .loadCsv csv => match jsLoadCsv parseFloat isZero csv with
    | .ok g' => .ok g'
    | .error _ => .ok g
  | .loadPreset p => .ok p

end

/-! ### Requests -/

/-- The value of the select element: at first a string (app.js:172), then the array of the
selected labels (form.html:12-20, `multiple`). -/
inductive Selection
  | one (label : Text)
  | many (labels : List Text)

/-- The labels sent to the server (arrays are sent as repeated parameters). -/
def Selection.labels : Selection → List Text
  | .one t => [t]
  | .many ts => ts

/-- `algorithm === "voting"` (app.js:37): an array is never equal to a string. -/
def Selection.isVoting : Selection → Bool
  | .one t => t = "voting".toList
  | .many _ => false

/-- The iteration settings (app.js:175-180); `null` for an empty field. -/
structure IterSettings (α : Type) where
  type : Text
  limit : Option Int
  measure : Text
  threshold : Option α

/-- `getIterationString` (app.js:147-161); `strInt` is `toString` of an integer, `toFixed` is
`toFixed(10)`. -/
def iterationString {α : Type} (strInt : Int → Text) (toFixed : α → Text) (s : IterSettings α) :
    Except JsErr Text :=
  if s.type = "fixed".toList then
    match s.limit with
    | none => .error .typeError
    | some n => .ok ("iterator=".toList ++ ("fixed-".toList ++ strInt n))
  else if s.type = "convergence".toList then
    match s.threshold with
    | none => .error .typeError
    | some x => .ok ("iterator=".toList ++
        (s.measure ++ "-convergence-".toList ++ toFixed x ++ "-limit-100".toList))
  else .error .iterationType

/-- The parameters sent with the request (app.js:37-49). -/
def formParams {α : Type} (strInt : Int → Text) (toFixed : α → Text) (sel : Selection)
    (s : IterSettings α) (algParams : Text) : Except JsErr (Option Text) :=
  if sel.isVoting then .ok (if algParams = [] then none else some algParams)
  else do
    let p := if algParams = [] then algParams else algParams ++ ['\n']
    let p := p ++ (← iterationString strInt toFixed s)
    return if p = [] then none else some p

/-- The request made by `getResults` (app.js:34-59). -/
def formRequest {α X : Type} (strInt : Int → Text) (toFixed : α → Text) (strVal : X → Text)
    (sel : Selection) (g : Grid X) (compare : Bool) (previous : Option Text)
    (s : IterSettings α) (algParams : Text) : Except JsErr Request := do
  let p ← formParams strInt toFixed sel s algParams
  return {
    algorithm := sel.labels
    csv := some (jsAsCsv strVal g)
    parameters := p
    previousResults := if compare then previous else none }

section
variable {X : Type} [DecidableEq X] {R : Rounding}

/-- One field of an output as JSON.  Simplification: only the fields that the server reads
again. -/
noncomputable def storedField (env : Env X R) : OutVal Nat Nat X (FP R) → Option (Text × WJson (FP R))
  | .trust d => some ("trust".toList, .obj (jsonKeys env.strNat .num d))
  | .belief d => some ("belief".toList,
      .obj (jsonKeys env.strNat (fun b => .obj (jsonKeys env.strVal .num b)) d))
  | .time x => some ("time".toList, .num x)
  | .iterations n => some ("iterations".toList, match n with
    | none => .null
    | some n => .num (Arith.ofNat n))
  | _ => none

/-- The output for an algorithm without the images (app.js:77-80); the order of the keys,
which JavaScript may change, is not modelled. -/
noncomputable def storedResults (env : Env X R) (out : WebOut X (FP R)) : WJson (FP R) :=
  .obj ([Field.trust, .belief, .time, .iterations].filterMap fun f =>
    (out.fields.get? f).bind (storedField env))

/-- `previous_results` after a successful request (app.js:72-84); no label has a single
character, so a string never has length 1. -/
noncomputable def nextPrevious (env : Env X R) (stringify : WJson (FP R) → Text) (sel : Selection)
    (data : Dict Text (WebOut X (FP R))) : Except JsErr (Option Text) :=
  match sel with
  | .many [label] => match data.get? label with
    | none => .error .typeError
    | some out => .ok (some (stringify (storedResults env out)))
  | _ => .ok none

end

/-! ### Animations -/

/-- An `Animator` with loaded frames (animator.js:1-14); drawing is not modelled. -/
structure AnimatorState where
  frames : Nat
  current : Int
deriving DecidableEq

/-- `Animator.prototype.setFrame` (animator.js:31-37). -/
def AnimatorState.setFrame (a : AnimatorState) (i : Int) : AnimatorState :=
  { a with current := max 0 (min i (a.frames - 1)) }

/-- The keys of the animation and the loading of a new one (animator.js:7-13, 23-29;
app.js:408-420). -/
inductive AnimatorOp
  | load (frames : Nat)
  | previous
  | next

/-- See `AnimatorOp`; `load` draws frame 0, which must exist. -/
def AnimatorState.op (a : AnimatorState) : AnimatorOp → Except JsErr AnimatorState
  | .load n => if n = 0 then .error .typeError else .ok { frames := n, current := 0 }
  | .previous => .ok (a.setFrame (a.current - 1))
  | .next => .ok (a.setFrame (a.current + 1))

end TD
