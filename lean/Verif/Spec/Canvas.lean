import Verif.Model.Canvas
import Verif.Spec.Backends
/-!
# What a canvas shows
-/

namespace TD.Spec

/-- A canvas and its 2D context (HTML standard). -/
structure Canvas where
  size : ℝ × ℝ := (300, 150)
  fillColour : Colour := [0, 0, 0]
  strokeColour : Colour := [0, 0, 0]
  lineWidth : ℝ := 1
  font : ℝ := 10
  middle : Bool := false
  pen : Option (ℝ × ℝ) := none
  path : List Shape := []
  /-- painted since the canvas was cleared -/
  picture : List Paint := []

/-- A component of `rgb(…)`: between 0 and 255. -/
noncomputable def channel (x : ℝ) : ℝ := max 0 (min 1 (x / 255))

/-- The line to the begin of an arc that is added when the path has been begun. -/
noncomputable def Canvas.join (k : Canvas) (p : ℝ × ℝ) : List Shape :=
  match k.pen with
  | none => []
  | some q => [.seg q p]

/-- Effect of a call.  Setting the width or the height clears the canvas and resets the context;
a line width that is not positive and a negative font size are ignored.  Text is given by the
left end of its base line, or of its middle if that is the base line chosen (the only use). -/
noncomputable def Canvas.call (k : Canvas) : CanvasCall → Canvas
  | .width w => { size := (w, k.size.2) }
  | .height h => { size := (k.size.1, h) }
  | .textBaselineMiddle => { k with middle := true }
  | .fillStyle r g b => { k with fillColour := [channel r, channel g, channel b] }
  | .strokeStyle r g b => { k with strokeColour := [channel r, channel g, channel b] }
  | .lineWidth w => if 0 < w then { k with lineWidth := w } else k
  | .font s => if 0 ≤ s then { k with font := s } else k
  | .beginPath => { k with
      path := []
      pen := none }
  | .arc x y r a b => { k with
      path := k.path ++ k.join (x + r * Real.cos a, y + r * Real.sin a) ++ [.arc x y r a b]
      pen := some (x + r * Real.cos b, y + r * Real.sin b) }
  | .fill => { k with picture := k.picture ++ [.fill k.fillColour k.path] }
  | .fillRect x y w h => { k with picture := k.picture ++ [.fill k.fillColour [.box x y w h]] }
  | .moveTo x y => { k with pen := some (x, y) }
  | .lineTo x y => { k with
      path := k.path ++ k.join (x, y)
      pen := some (x, y) }
  | .stroke => { k with picture := k.picture ++ [.stroke k.strokeColour k.lineWidth [] k.path] }
  | .fillText t x y => { k with picture := k.picture ++ [.text k.fillColour k.font (x, y) t] }

/-- The canvas after a sequence of calls. -/
noncomputable def Canvas.after (k : Canvas) (calls : List CanvasCall) : Canvas := calls.foldl Canvas.call k

/-- Text in the browser: as wide as measured, as high as the font size, placed by its middle. -/
noncomputable def browserExtents (measure : ℝ → Text → ℝ) (size : ℝ) (t : Text) : Extents :=
  ⟨measure size t, size, 0⟩

/-- Without transparency. -/
def solid (c : Colour) : Colour := c.take 3

/-- The entity without transparency and dashes. -/
def plain : Entity → Entity
  | .rect x y c w h => .rect x y (solid c) w h
  | .circle x y c r label => .circle x y (solid c) r (label.map fun l => { l with
      colour := solid l.colour
      overflowBackground := solid l.overflowBackground })
  | .line x y c endX endY w _ => .line x y (solid c) endX endY w false

/-- RGB or RGBA with components in `[0, 1]`. -/
def ColourIn (c : Colour) : Prop := ColourOk c ∧ ∀ x ∈ c, 0 ≤ x ∧ x ≤ 1

/-- Entities with proper colours and sizes. -/
def Drawable : Entity → Prop
  | .rect _ _ c _ _ => ColourIn c
  | .circle _ _ c r label => ColourIn c ∧ 0 ≤ r ∧ ∀ l, label = some l → ColourIn l.colour ∧
      ColourIn l.overflowBackground ∧ 0 ≤ l.size
  | .line _ _ c _ _ w _ => ColourIn c ∧ 0 < w

/-- RGB with components in `[0, 1]`. -/
def Rgb (c : Colour) : Prop := c.length = 3 ∧ ∀ x ∈ c, 0 ≤ x ∧ x ≤ 1

/-- The canvas has the size of the picture (entities, width, height) and shows its entities, in
their order. -/
def CanvasShows (measure : ℝ → Text → ℝ) (k : Canvas) (f : List Entity × ℝ × ℝ) : Prop :=
  k.size = f.2 ∧ k.picture = f.1.flatMap fun e => entityPaint (browserExtents measure) f.2.1 (plain e)

/-- What the user can do when an animation with `n` frames is loaded: keys and buttons, or the
slider, which runs from 0 to `n - 1`. -/
inductive UserOp (n : Nat) : JsAnimatorOp → Prop
  | previous : UserOp n .previous
  | next : UserOp n .next
  | slide (i : Nat) (h : i < n) : UserOp n (.slide i)

/-- An animator and its canvas after an animation with frames `fs` was loaded (whatever the
animator and the canvas were like before) and the user did something. -/
inductive Played (measure : ℝ → Text → ℝ) (fs : List (List Entity × ℝ × ℝ)) : JsAnimator → Canvas → Prop
  | load (a0 a : JsAnimator) (k : Canvas) (doc : Json) (fps : ℝ) (calls : List CanvasCall)
      (hdoc : readAnimation doc = some (fps, fs)) (h : a0.op measure (.load doc) = .ok (a, calls)) : Played measure fs a (k.after calls)
  | step (a a' : JsAnimator) (k : Canvas) (o : JsAnimatorOp) (calls : List CanvasCall) (hp : Played measure fs a k)
      (ho : UserOp fs.length o) (h : a.op measure o = .ok (a', calls)) : Played measure fs a' (k.after calls)

end TD.Spec
