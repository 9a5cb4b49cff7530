import Verif.Model.Backends
import Verif.Model.Frontend
/-!
# `truthdiscovery/client/web/static/app/graph_drawer.js` and the drawing of `animator.js`

Simplification: a field of a JSON document that is missing or of another type than the one the
code relies on is an error (JavaScript would go on with `undefined` or `NaN`).
-/

namespace TD

/-- Properties and methods of the canvas element and its 2D context used by the code. -/
inductive CanvasCall
  | width (w : ℝ)
  | height (h : ℝ)
  | textBaselineMiddle
  /-- the string `rgb(r, g, b)` -/
  | fillStyle (r g b : ℝ)
  | strokeStyle (r g b : ℝ)
  | lineWidth (w : ℝ)
  /-- the string `normal <size>px Arial` -/
  | font (size : ℝ)
  | beginPath
  | arc (x y r a b : ℝ)
  | fill
  | fillRect (x y w h : ℝ)
  | moveTo (x y : ℝ)
  | lineTo (x y : ℝ)
  | stroke
  | fillText (t : Text) (x y : ℝ)

namespace Js

/-- `obj.name` -/
def get (j : Json) (name : String) : Except JsErr Json :=
  match j with
  | .obj fs => match fs.lookup name.toList with
    | some v => .ok v
    | none => .error .typeError
  | _ => .error .typeError

/-- A number. -/
def num : Json → Except JsErr ℝ
  | .num x => .ok x
  | _ => .error .typeError

/-- A string. -/
def str : Json → Except JsErr Text
  | .str t => .ok t
  | _ => .error .typeError

/-- An array. -/
def arr : Json → Except JsErr (List Json)
  | .arr l => .ok l
  | _ => .error .typeError

/-- `obj.name`, a number. -/
def getNum (j : Json) (name : String) : Except JsErr ℝ := (get j name).bind num

/-- `obj.name`, a string. -/
def getStr (j : Json) (name : String) : Except JsErr Text := (get j name).bind str

/-- `obj.name`, an array. -/
def getArr (j : Json) (name : String) : Except JsErr (List Json) := (get j name).bind arr

/-- The first three members of an array. -/
def triple (j : Json) : Except JsErr (ℝ × ℝ × ℝ) :=
  match j with
  | .arr (.num r :: .num g :: .num b :: _) => .ok (r, g, b)
  | _ => .error .typeError

/-- `obj.name`, a colour. -/
def getTriple (j : Json) (name : String) : Except JsErr (ℝ × ℝ × ℝ) := (get j name).bind triple

end Js

/-- `GraphDrawer.prototype.get_colour_string` (graph_drawer.js:98-103). -/
noncomputable def colourString (c : ℝ × ℝ × ℝ) : ℝ × ℝ × ℝ := (c.1 * 255, c.2.1 * 255, c.2.2 * 255)

/-- `this.ctx.fillStyle = this.get_colour_string(c)` -/
noncomputable def setFill (c : ℝ × ℝ × ℝ) : CanvasCall :=
  .fillStyle (colourString c).1 (colourString c).2.1 (colourString c).2.2

/-- `this.ctx.strokeStyle = this.get_colour_string(c)` -/
noncomputable def setStroke (c : ℝ × ℝ × ℝ) : CanvasCall :=
  .strokeStyle (colourString c).1 (colourString c).2.1 (colourString c).2.2

/-- `GraphDrawer.prototype.draw_label` (graph_drawer.js:65-93); `measure size text` is the width
given by `measureText`. -/
noncomputable def jsDrawLabel (measure : ℝ → Text → ℝ) (label : Json) (maxWidth canvasWidth : ℝ) :
    Except JsErr (List CanvasCall) := do
  let size ← Js.getNum label "size"
  let text ← Js.getStr label "text"
  let x ← Js.getNum label "x"
  let y ← Js.getNum label "y"
  let w := measure size text
  let lhs := max 0 (min (canvasWidth - w) (x - w / 2))
  let colour ← Js.getTriple label "colour"
  let background ← Js.getTriple label "overflow_background"
  let padding : ℝ := 5
  let (box, c) :=
    if w > maxWidth then
      ([setFill background, .fillRect (lhs - padding) (y - size / 2 - padding) (w + 2 * padding)
        (size + 2 * padding)], (1 - background.1, 1 - background.2.1, 1 - background.2.2))
    else ([], colour)
  return [.font size] ++ box ++ [setFill c, .fillText text lhs y]

/-- `if (ent.label !== null)` (graph_drawer.js:39-41). -/
noncomputable def jsLabel (measure : ℝ → Text → ℝ) (label : Json) (maxWidth canvasWidth : ℝ) :
    Except JsErr (List CanvasCall) :=
  match label with
  | .null => .ok []
  | label => jsDrawLabel measure label maxWidth canvasWidth

/-- The body of the loop of `draw_graph` (graph_drawer.js:28-57).  `arc` with a negative radius
raises an exception. -/
noncomputable def jsDrawEntity (measure : ℝ → Text → ℝ) (canvasWidth : ℝ) (ent : Json) :
    Except JsErr (List CanvasCall) := do
  let colour ← Js.getTriple ent "colour"
  let type ← Js.getStr ent "type"
  if type = "circle".toList then do
    let x ← Js.getNum ent "x"
    let y ← Js.getNum ent "y"
    let radius ← Js.getNum ent "radius"
    if radius < 0 then .error .indexSize
    else do
      let label ← Js.get ent "label"
      let rest ← jsLabel measure label (2 * radius) canvasWidth
      return [setFill colour, .beginPath, .arc x y radius 0 (2 * Real.pi), .fill] ++ rest
  else if type = "rectangle".toList then do
    let x ← Js.getNum ent "x"
    let y ← Js.getNum ent "y"
    let width ← Js.getNum ent "width"
    let height ← Js.getNum ent "height"
    return [setFill colour, .fillRect x y width height]
  else if type = "line".toList then do
    let x ← Js.getNum ent "x"
    let y ← Js.getNum ent "y"
    let width ← Js.getNum ent "width"
    let endX ← Js.getNum ent "end_x"
    let endY ← Js.getNum ent "end_y"
    return [setStroke colour, .lineWidth width, .beginPath, .moveTo x y, .lineTo endX endY, .stroke]
  else return []

/-- The loop of `draw_graph` (graph_drawer.js:28-57). -/
noncomputable def jsDrawEntities (measure : ℝ → Text → ℝ) (canvasWidth : ℝ) :
    List Json → Except JsErr (List CanvasCall)
  | [] => .ok []
  | e :: es => do
    let a ← jsDrawEntity measure canvasWidth e
    let b ← jsDrawEntities measure canvasWidth es
    return a ++ b

/-- `GraphDrawer.prototype.draw_graph` (graph_drawer.js:23-58): the calls made. -/
noncomputable def jsDrawGraph (measure : ℝ → Text → ℝ) (obj : Json) : Except JsErr (List CanvasCall) := do
  let w ← Js.getNum obj "width"
  let h ← Js.getNum obj "height"
  let es ← Js.getArr obj "entities"
  let calls ← jsDrawEntities measure w es
  return [.width w, .height h, .textBaselineMiddle] ++ calls

/-- An `Animator` (animator.js:1-5). -/
structure JsAnimator where
  frames : Option (List Json)
  currentFrame : Int

/-- `redraw` (animator.js:15-21): the calls made. -/
noncomputable def JsAnimator.redraw (measure : ℝ → Text → ℝ) (a : JsAnimator) :
    Except JsErr (List CanvasCall) :=
  match a.frames with
  | none => .ok []
  | some frames =>
    if a.currentFrame < 0 then .error .typeError
    else match frames[a.currentFrame.toNat]? with
      | none => .error .typeError
      | some f => jsDrawGraph measure f

/-- `setFrame` (animator.js:31-37). -/
noncomputable def JsAnimator.setFrame (measure : ℝ → Text → ℝ) (a : JsAnimator) (i : Int) :
    Except JsErr (JsAnimator × List CanvasCall) :=
  match a.frames with
  | none => .ok (a, [])
  | some frames => do
    let a : JsAnimator := { a with currentFrame := max 0 (min i (frames.length - 1)) }
    return (a, ← a.redraw measure)

/-- What the user and the answers of the server do to an animator. -/
inductive JsAnimatorOp
  /-- an answer with an animation (app.js:92-96, animator.js:7-13) -/
  | load (doc : Json)
  /-- left key and button (app.js:408-420, results.html) -/
  | previous
  /-- right key and button -/
  | next
  /-- the slider (results.html: `ng-model`, `ng-change`); Angular 1.7 gives a number -/
  | slide (i : Int)

/-- See `JsAnimatorOp`. -/
noncomputable def JsAnimator.op (measure : ℝ → Text → ℝ) (a : JsAnimator) :
    JsAnimatorOp → Except JsErr (JsAnimator × List CanvasCall)
  | .load doc => do
    let frames ← Js.getArr doc "frames"
    let a : JsAnimator := { frames := some frames, currentFrame := 0 }
    return (a, ← a.redraw measure)
  | .previous => a.setFrame measure (a.currentFrame - 1)
  | .next => a.setFrame measure (a.currentFrame + 1)
  | .slide i => do
    let a : JsAnimator := { a with currentFrame := i }
    return (a, ← a.redraw measure)

end TD
