import Verif.Model.Graph
import Verif.Model.Algorithm
/-!
# `truthdiscovery/graphs/backends` and `truthdiscovery/graphs/animation.py`
-/

namespace TD

/-! ### json_backend.py -/

/-- JSON values (for the text `json.dump` writes for them see Model/JsonFiles). -/
inductive Json
  | null
  | bool (b : Bool)
  | num (x : ℝ)
  | str (t : Text)
  | arr (l : List Json)
  | obj (fields : List (Text × Json))

/-- A tuple of numbers. -/
def Json.nums (l : List ℝ) : Json := .arr (l.map .num)

/-- `JsonBackend.entity_to_dict` (json_backend.py:19-30) for a label: the class name in
lower case, then the attributes in the order of their assignment (entities.py:1-49). -/
def Label.toDict (l : Label) : Json :=
  .obj [("type".toList, .str "label".toList), ("x".toList, .num l.x), ("y".toList, .num l.y),
    ("colour".toList, .nums l.colour), ("text".toList, .str l.text), ("size".toList, .num l.size),
    ("overflow_background".toList, .nums l.overflowBackground)]

/-- `JsonBackend.entity_to_dict` (json_backend.py:19-30). -/
def Entity.toDict : Entity → Json
  | .rect x y colour width height =>
    .obj [("type".toList, .str "rectangle".toList), ("x".toList, .num x), ("y".toList, .num y),
      ("colour".toList, .nums colour), ("width".toList, .num width), ("height".toList, .num height)]
  | .circle x y colour radius label =>
    .obj [("type".toList, .str "circle".toList), ("x".toList, .num x), ("y".toList, .num y),
      ("colour".toList, .nums colour), ("radius".toList, .num radius),
      ("label".toList, match label with
        | none => .null
        | some l => l.toDict)]
  | .line x y colour endX endY width dashed =>
    .obj [("type".toList, .str "line".toList), ("x".toList, .num x), ("y".toList, .num y),
      ("colour".toList, .nums colour), ("end_x".toList, .num endX), ("end_y".toList, .num endY),
      ("width".toList, .num width), ("dashed".toList, .bool dashed)]

/-- What is handed to a backend: entities, width, height. -/
abbrev Frame := List Entity × ℝ × Int

/-- `JsonBackend.draw_entities` (json_backend.py:11-17): the document written. -/
def jsonDoc (f : Frame) : Json :=
  .obj [("width".toList, .num f.2.1), ("height".toList, .num f.2.2),
    ("entities".toList, .arr (f.1.map Entity.toDict))]

/-! ### png_backend.py -/

/-- Calls of a Cairo context. -/
inductive Cairo
  | source (c : Colour)
  | rectangle (x y w h : ℝ)
  | arc (x y r a b : ℝ)
  | fill
  | dash (l : List ℝ)
  | lineWidth (w : ℝ)
  | moveTo (x y : ℝ)
  | lineTo (x y : ℝ)
  | stroke
  | fontSize (s : ℝ)
  | showText (t : Text)

/-- `ctx.text_extents(text)` -/
structure Extents where
  width : ℝ
  height : ℝ
  yBearing : ℝ

/-- `ctx.set_source_rgba(*colour)`: three or four numbers. -/
def setSource (c : Colour) : Except PyErr (List Cairo) :=
  if c.length = 3 ∨ c.length = 4 then .ok [.source c] else .error .typeError

/-- The left end of a label (png_backend.py:48-49). -/
noncomputable def labelLhs (imageWidth x w : ℝ) : ℝ := max 0 (min (imageWidth - w) (x - w / 2))

/-- Unpacking of the background colour (png_backend.py:55-59). -/
def rgb : Colour → Except PyErr (ℝ × ℝ × ℝ)
  | [r, g, b] => .ok (r, g, b)
  | [r, g, b, _] => .ok (r, g, b)
  | _ => .error .valueError

/-- `PngBackend.draw_label` (png_backend.py:44-77).  `ext size text` are the extents.
Simplification: `label.colour` is overwritten by the code when the label is too wide
(drawing the same entity object again then does the same). -/
noncomputable def drawLabel (ext : ℝ → Text → Extents) (l : Label) (maxWidth imageWidth : ℝ) :
    Except PyErr (List Cairo) := do
  let e := ext l.size l.text
  let lhs := labelLhs imageWidth l.x e.width
  let (box, colour) ← if e.width > maxWidth then do
      let (r, g, b) ← rgb l.overflowBackground
      let src ← setSource l.overflowBackground
      pure (src ++ [.rectangle (lhs - 5) (l.y - e.height / 2 - 5) (e.width + 2 * 5)
        (e.height + 2 * 5), .fill], [1 - r, 1 - g, 1 - b])
    else pure ([], l.colour)
  let src ← setSource colour
  return .fontSize l.size :: box ++ src ++ [.moveTo lhs (l.y - e.yBearing / 2), .showText l.text]

/-- Body of the loop of `PngBackend.draw_entities` (png_backend.py:20-40). -/
noncomputable def drawEntity (ext : ℝ → Text → Extents) (imageWidth : ℝ) :
    Entity → Except PyErr (List Cairo)
  | .rect x y colour w h => do
    return (← setSource colour) ++ [.rectangle x y w h, .fill]
  | .circle x y colour radius label => do
    let src ← setSource colour
    let lab ← match label with
      | none => pure []
      | some l => drawLabel ext l (2 * radius) imageWidth
    return src ++ [.arc x y radius 0 (2 * Real.pi), .fill] ++ lab
  | .line x y colour endX endY width dashed => do
    return (← setSource colour) ++ [.dash (if dashed then [10] else []), .lineWidth width,
      .moveTo x y, .lineTo endX endY, .stroke]

/-- `PngBackend.draw_entities` (png_backend.py:13-42): the calls of the context.  (An
image of negative size is refused by Cairo; not modelled.) -/
noncomputable def pngCalls (ext : ℝ → Text → Extents) (f : Frame) : Except PyErr (List Cairo) :=
  Renderer.yields f.1 (drawEntity ext f.2.1)

/-! ### animation.py -/

/-- Class of a backend. -/
inductive Backend
  | png
  | json
  | other
deriving DecidableEq

/-- `GifAnimator` and `JsonAnimator` (animation.py:75-98). -/
inductive AnimatorKind
  | gif
  | json

/-- `supported_backends` (animation.py:80, 94). -/
def AnimatorKind.supported : AnimatorKind → List Backend
  | .gif => [.png]
  | .json => [.json]

section
variable {S V X L : Type} [DecidableEq S] [DecidableEq V] [DecidableEq X] [DecidableEq L]

/-- An animator. -/
structure Animator (S V X L : Type) where
  kind : AnimatorKind
  renderer : Renderer S V X L
  backend : Backend
  fps : ℝ

/-- `BaseAnimator.__init__` (animation.py:20-37); `default` is `GraphRenderer()`. -/
noncomputable def mkAnimator (kind : AnimatorKind) (default : Renderer S V X L)
    (renderer : Option (Renderer S V X L × Backend)) (frameDuration : ℝ := 0.2) :
    Except PyErr (Animator S V X L) := do
  let (r, b) ← match renderer with
    | some x => pure x
    | none => match kind.supported with
      | b :: _ => pure (default, b)
      | [] => .error .indexError
  if frameDuration = 0 then .error .zeroDivision
  else
    let fps := 1 / frameDuration
    if b ∈ kind.supported then return ⟨kind, r, b, fps⟩ else .error .typeError

/-- The loop of `get_frames` (animation.py:58-65) over `enumerate(all_results)`, from the
item `(i, results)` on: the frames produced before the exception, if any, and the renderer
afterwards. -/
noncomputable def frameLoop {R : Rounding} (d : Dataset S V X (FP R)) (showProgress : Bool)
    (numIterations : Int) : List (Nat × Result S V X (FP R)) → Renderer S V X L →
    Renderer.State S V X (FP R) →
    (Renderer S V X L × Renderer.State S V X (FP R)) × List Frame × Option PyErr
  | [], r, st => ((r, st), [], none)
  | (i, res) :: rest, r, st =>
    let r : Renderer S V X L := { r with colours := gradientScheme res }
    if showProgress = true ∧ numIterations = 0 then ((r, st), [], some .zeroDivision)
    else
      let progress : Option ℝ := if showProgress then some (i / numIterations) else none
      match r.render st d progress with
      | (st, .error e) => ((r, st), [], some e)
      | (st, .ok f) =>
        let z := frameLoop d showProgress numIterations rest r st
        (z.1, f :: z.2.1, z.2.2)

/-- `BaseAnimator.get_frames` (animation.py:49-65), all frames. -/
noncomputable def getFrames {R : Rounding} (r : Renderer S V X L) (st : Renderer.State S V X (FP R))
    (c : AlgCfg (FP R)) (d : Dataset S V X (FP R)) (fuel : Nat) (clock : Nat → FP R)
    (showProgress : Bool) (ist : IterState (FP R) := {}) :
    (Renderer S V X L × Renderer.State S V X (FP R)) × List Frame × Option PyErr :=
  match c.runIter d fuel clock ist with
  | .error e => ((r, st), [], some e)
  | .ok rs => frameLoop d showProgress (rs.length - 1) (enum rs) r st

/-- `JsonAnimator.animate` (animation.py:39-47, 96-98): the document written. -/
noncomputable def jsonAnimation {R : Rounding} (a : Animator S V X L) (st : Renderer.State S V X (FP R))
    (c : AlgCfg (FP R)) (d : Dataset S V X (FP R)) (fuel : Nat) (clock : Nat → FP R)
    (showProgress : Bool := true) (ist : IterState (FP R) := {}) : Except PyErr Json :=
  match (getFrames a.renderer st c d fuel clock showProgress ist).2 with
  | (_, some e) => .error e
  | (fs, none) => .ok (.obj [("fps".toList, .num a.fps), ("frames".toList, .arr (fs.map jsonDoc))])

end
end TD
