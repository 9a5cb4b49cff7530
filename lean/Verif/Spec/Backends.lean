import Verif.Model.Backends
import Verif.Spec.Graph
/-!
# Reading drawings back
-/

namespace TD.Spec

/-! ### JSON -/

/-- Field of an object. -/
def field (j : Json) (name : String) : Option Json :=
  match j with
  | .obj fs => fs.lookup name.toList
  | _ => none

/-- A number. -/
def asNum : Json → Option ℝ
  | .num x => some x
  | _ => none

/-- A string. -/
def asStr : Json → Option Text
  | .str t => some t
  | _ => none

/-- A truth value. -/
def asBool : Json → Option Bool
  | .bool b => some b
  | _ => none

/-- An array. -/
def asArr : Json → Option (List Json)
  | .arr l => some l
  | _ => none

/-- An array of numbers. -/
def asNums (j : Json) : Option (List ℝ) := do (← asArr j).mapM asNum

/-- Numerical field. -/
def numField (j : Json) (name : String) : Option ℝ := do asNum (← field j name)

/-- A label. -/
def readLabel (j : Json) : Option Label := do
  if (← asStr (← field j "type")) ≠ "label".toList then none
  else return {
    x := ← numField j "x"
    y := ← numField j "y"
    colour := ← asNums (← field j "colour")
    text := ← asStr (← field j "text")
    size := ← numField j "size"
    overflowBackground := ← asNums (← field j "overflow_background") }

/-- Null or a label. -/
def readLabel? : Json → Option (Option Label)
  | .null => some none
  | j => (readLabel j).map some

/-- An entity, by the type it names. -/
def readEntity (j : Json) : Option Entity := do
  let t ← asStr (← field j "type")
  let x ← numField j "x"
  let y ← numField j "y"
  let colour ← asNums (← field j "colour")
  if t = "rectangle".toList then
    return .rect x y colour (← numField j "width") (← numField j "height")
  else if t = "circle".toList then
    return .circle x y colour (← numField j "radius") (← readLabel? (← field j "label"))
  else if t = "line".toList then
    return .line x y colour (← numField j "end_x") (← numField j "end_y") (← numField j "width")
      (← asBool (← field j "dashed"))
  else none

/-- A whole document: entities, width and height. -/
def readDoc (j : Json) : Option (List Entity × ℝ × ℝ) := do
  let es ← (← asArr (← field j "entities")).mapM readEntity
  return (es, ← numField j "width", ← numField j "height")

/-- An animation: frames per second and frames. -/
def readAnimation (j : Json) : Option (ℝ × List (List Entity × ℝ × ℝ)) := do
  return (← numField j "fps", ← (← asArr (← field j "frames")).mapM readDoc)

/-! ### What a Cairo context paints -/

/-- Parts of a path. -/
inductive Shape
  | box (x y w h : ℝ)
  | arc (x y r a b : ℝ)
  | seg (a b : ℝ × ℝ)

/-- One painting operation. -/
inductive Paint
  | fill (c : Colour) (path : List Shape)
  | stroke (c : Colour) (width : ℝ) (dash : List ℝ) (path : List Shape)
  | text (c : Colour) (size : ℝ) (at' : ℝ × ℝ) (t : Text)

/-- State of a context. -/
structure Ctx where
  colour : Colour := [0, 0, 0]
  dash : List ℝ := []
  width : ℝ := 2
  size : ℝ := 10
  pen : Option (ℝ × ℝ) := none
  path : List Shape := []

/-- Effect of a call (cairo documentation).  Text leaves the pen behind it; an arc is then
joined to the pen by a line back and forth, which fills no area and is ignored here: the
pen is lifted. -/
noncomputable def Ctx.call (k : Ctx) : Cairo → Ctx × List Paint
  | .source c => ({ k with colour := c }, [])
  | .rectangle x y w h => ({ k with path := k.path ++ [.box x y w h], pen := some (x, y) }, [])
  | .arc x y r a b => ({ k with
      path := k.path ++ [.arc x y r a b]
      pen := some (x + r * Real.cos b, y + r * Real.sin b) }, [])
  | .fill => ({ k with path := [], pen := none }, [.fill k.colour k.path])
  | .dash l => ({ k with dash := l }, [])
  | .lineWidth w => ({ k with width := w }, [])
  | .moveTo x y => ({ k with pen := some (x, y) }, [])
  | .lineTo x y => ({ k with
      pen := some (x, y)
      path := match k.pen with
        | none => k.path
        | some p => k.path ++ [.seg p (x, y)] }, [])
  | .stroke => ({ k with path := [], pen := none }, [.stroke k.colour k.width k.dash k.path])
  | .fontSize s => ({ k with size := s }, [])
  | .showText t => ({ k with pen := none }, match k.pen with
      | none => [.text k.colour k.size (0, 0) t]
      | some p => [.text k.colour k.size p t])

/-- Everything painted by a sequence of calls. -/
noncomputable def Ctx.paints (k : Ctx) : List Cairo → List Paint
  | [] => []
  | c :: cs => (k.call c).2 ++ Ctx.paints (k.call c).1 cs

/-- The opposite colour. -/
noncomputable def opposite (c : Colour) : Colour := (c.take 3).map fun x => 1 - x

/-- Left end of a label of width `w` for position `x`: centred if that is inside the image,
otherwise moved to the edge that would be crossed; at the left edge if it does not fit. -/
noncomputable def labelLeft (W x w : ℝ) : ℝ :=
  if W < w then 0
  else if x - w / 2 < 0 then 0
  else if W < x + w / 2 then W - w
  else x - w / 2

/-- What a label looks like: centred on its position unless that would cross an edge of
the image; if it is wider than its node, on a box of background colour (5 pixels
larger on each side) and in the opposite colour. -/
noncomputable def labelPaint (ext : ℝ → Text → Extents) (W radius : ℝ) (l : Label) : List Paint :=
  let e := ext l.size l.text
  let lhs := labelLeft W l.x e.width
  let pos := (lhs, l.y - e.yBearing / 2)
  if 2 * radius < e.width then
    [.fill l.overflowBackground [.box (lhs - 5) (l.y - e.height / 2 - 5) (e.width + 10) (e.height + 10)],
     .text (opposite l.overflowBackground) l.size pos l.text]
  else [.text l.colour l.size pos l.text]

/-- What an entity looks like. -/
noncomputable def entityPaint (ext : ℝ → Text → Extents) (W : ℝ) : Entity → List Paint
  | .rect x y c w h => [.fill c [.box x y w h]]
  | .circle x y c r label => .fill c [.arc x y r 0 (2 * Real.pi)] ::
      (match label with
        | none => []
        | some l => labelPaint ext W r l)
  | .line x y c endX endY w dashed =>
      [.stroke c w (if dashed then [10] else []) [.seg (x, y) (endX, endY)]]

/-- RGB or RGBA. -/
def ColourOk (c : Colour) : Prop := c.length = 3 ∨ c.length = 4

/-- Entities with proper colours. -/
def EntityOk : Entity → Prop
  | .rect _ _ c _ _ => ColourOk c
  | .circle _ _ c _ label => ColourOk c ∧ ∀ l, label = some l → ColourOk l.colour ∧
      ColourOk l.overflowBackground
  | .line _ _ c _ _ _ _ => ColourOk c

open Classical in
/-- The exception that painting an entity raises, if any: `TypeError` for a colour that is not RGB or RGBA, and `ValueError`
for such an overflow background, which is only looked at if the label is wider than its node (and then replaces the
colour of the text). -/
noncomputable def paintError (ext : ℝ → Text → Extents) (e : Entity) : Option PyErr :=
  match e with
  | .rect _ _ c _ _ | .line _ _ c _ _ _ _ => if ColourOk c then none else some .typeError
  | .circle _ _ c radius label =>
    if ¬ ColourOk c then some .typeError
    else match label with
      | none => none
      | some l =>
        if 2 * radius < (ext l.size l.text).width then
          if ColourOk l.overflowBackground then none else some .valueError
        else if ColourOk l.colour then none else some .typeError

end TD.Spec
