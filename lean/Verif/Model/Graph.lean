import Verif.Model.Dataset
import Verif.Model.Result
import Verif.Model.Text
import Verif.Model.Float
import Mathlib.Analysis.SpecialFunctions.Complex.Arg
/-!
# `truthdiscovery/graphs`: drawing a dataset

Simplification: coordinates and sizes are real numbers (Python: ints and floats).
Scores, which decide about colours, are floats `FP R` with any rounding.
-/

namespace TD

/-- RGB or RGBA. -/
abbrev Colour := List ℝ

/-! ### entities.py -/

/-- `Label` (entities.py:1-8, 35-49) -/
structure Label where
  x : ℝ
  y : ℝ
  colour : Colour
  text : Text
  size : ℝ
  overflowBackground : Colour

/-- `Rectangle`, `Circle`, `Line` (entities.py:1-32) -/
inductive Entity
  | rect (x y : ℝ) (colour : Colour) (width height : ℝ)
  | circle (x y : ℝ) (colour : Colour) (radius : ℝ) (label : Option Label)
  | line (x y : ℝ) (colour : Colour) (endX endY width : ℝ) (dashed : Bool)

/-! ### colours.py -/

/-- Node type and hint passed to `get_node_colour` (colours.py:14-20). -/
inductive NodeHint (S V X : Type)
  | source (s : S)
  | claim (v : V) (x : X)
  | var (v : V)

/-- A colour scheme: `get_node_colour`, `get_background_colour`, `get_edge_colour`,
`get_animation_progress_colour`. -/
structure Scheme (S V X : Type) where
  node : NodeHint S V X → Except PyErr (Colour × Colour × Colour)
  background : Colour
  edge : Colour
  progress : Colour

section
variable {S V X : Type} [DecidableEq S] [DecidableEq V] [DecidableEq X]

/-- `GraphColourScheme` (colours.py:10-50). -/
noncomputable def defaultScheme : Scheme S V X where
  node h := .ok (match h with
    | .source _ => [0.133, 0.40, 0.40]
    | .claim _ _ => [0.478, 0.624, 0.208]
    | .var _ => [0.667, 0.224, 0.224], [1, 1, 1], [0.15, 0.15, 0.15])
  background := [1, 1, 1]
  edge := [0.5, 0.5, 0.5]
  progress := [0, 0, 0]

/-- `PlainColourScheme` (colours.py:111-122). -/
noncomputable def plainScheme : Scheme S V X where
  node _ := .ok ([1, 1, 1], [0, 0, 0], [0, 0, 0])
  background := [1, 1, 1, 0]
  edge := [0, 0, 0]
  progress := [0, 0, 0]

/-- `ResultsGradientColourScheme.COLOURS` (colours.py:60-72). -/
noncomputable def gradientColours : List Colour :=
  [[0.9686274509803922, 0.9882352941176471, 0.9607843137254902],
   [0.8980392156862745, 0.9607843137254902, 0.8784313725490196],
   [0.7803921568627451, 0.9137254901960784, 0.7529411764705882],
   [0.6313725490196078, 0.8509803921568627, 0.6078431372549019],
   [0.4549019607843137, 0.7686274509803922, 0.4627450980392157],
   [0.2549019607843137, 0.6705882352941176, 0.36470588235294116],
   [0.13725490196078433, 0.5450980392156862, 0.27058823529411763],
   [0.0, 0.42745098039215684, 0.17254901960784313],
   [0.0, 0.26666666666666666, 0.10588235294117647]]

/-- Truncation towards zero. -/
noncomputable def truncInt (x : ℝ) : Int := if 0 ≤ x then ⌊x⌋ else ⌈x⌉

/-- `int(x)` for a float. -/
noncomputable def pyInt {R : Rounding} (x : FP R) : Except PyErr Int :=
  match (show FNum from x) with
  | .nan => .error .valueError
  | .pinf => .error .overflow
  | .ninf => .error .overflow
  | .fin x => .ok (truncInt x)

/-- `l[i]` for a Python list and any integer. -/
def pyIndex {β : Type} (l : List β) (i : Int) : Except PyErr β :=
  let j := if i < 0 then i + l.length else i
  if j < 0 then .error .indexError
  else match l[j.toNat]? with
    | some x => .ok x
    | none => .error .indexError

/-- `ResultsGradientColourScheme.get_graded_colours` (colours.py:79-88). -/
noncomputable def gradedColours {R : Rounding} (level : FP R) : Except PyErr (Colour × Colour) := do
  let i ← pyInt (level *. Arith.ofNat gradientColours.length)
  let index := min i (gradientColours.length - 1)
  let label : Colour := if Arith.lt level (Arith.lit 1 2) then [0, 0, 0] else [1, 1, 1]
  return (← pyIndex gradientColours index, label)

/-- `ResultsGradientColourScheme` (colours.py:53-108).  Simplification: source labels
are not tuples (a pair would be taken for a claim, colours.py:100). -/
noncomputable def gradientScheme {R : Rounding} (r : Result S V X (FP R)) : Scheme S V X where
  node h := do
    let (node, label, border) ← (defaultScheme (S := S) (V := V) (X := X)).node h
    match h with
    | .var _ => return (node, label, border)
    | .claim v x => do
      let level ← (← r.belief.get v).get x
      let (c, lc) ← gradedColours level
      return (c, lc, border)
    | .source s => do
      let level ← r.trust.get s
      let (c, lc) ← gradedColours level
      return (c, lc, border)
  background := (defaultScheme (S := S) (V := V) (X := X)).background
  edge := (defaultScheme (S := S) (V := V) (X := X)).edge
  progress := (defaultScheme (S := S) (V := V) (X := X)).progress

end

/-! ### draw.py -/

/-- A `GraphRenderer` without its mutable attributes (draw.py:23-51) and the
methods subclasses override: labels of sources, variables and claims (draw.py:72-82).
`lt` is `<` on labels (labels that cannot be compared are not modelled), `str` is
`str(label)`. -/
structure Renderer (S V X L : Type) where
  width : ℝ := 800
  nodeRadius : ℝ := 50
  spacing : ℝ := 20
  lineWidth : ℝ := 3
  nodeBorderWidth : ℝ := 3
  fontSize : ℝ := 15
  colours : Scheme S V X
  srcLabel : S → L
  varLabel : V → L
  claimLabel : V → X → L
  lt : L → L → Bool
  str : L → Text

namespace Renderer
variable {S V X L α : Type} [DecidableEq S] [DecidableEq V] [DecidableEq X] [DecidableEq L] [Arith α]

/-- `_get_y_coord` (draw.py:53-58) -/
noncomputable def yCoord (r : Renderer S V X L) (height : Int) (index numNodes : Nat) : ℝ :=
  if numNodes > 1 then
    r.nodeRadius + (height - 2 * r.nodeRadius) * index / (numNodes - 1)
  else height / 2

/-- `get_height` (draw.py:84-92) -/
noncomputable def getHeight (r : Renderer S V X L) (d : Dataset S V X α) : Int :=
  let n := max (max d.mats.numSources d.mats.numClaims) d.numVariables
  let nodesPx : ℝ := n * 2 * r.nodeRadius
  let spacingPx : ℝ := (n - 1) * r.spacing
  truncInt (nodesPx + spacingPx)

/-- `_sort_keys_by_value` (draw.py:10-15) -/
def sortKeysByValue {K : Type} (lt : K → K → Bool) (d : Dict Nat K) : List Nat :=
  (pySorted (fun p q => lt p.2 q.2) d).map Prod.fst

/-- `<` on pairs (tuples). -/
def ltPair (r : Renderer S V X L) (p q : L × L) : Bool :=
  if p.1 = q.1 then r.lt p.2 q.2 else r.lt p.1 q.1

/-- `rotation_matrix(angle) @ vec` (draw.py:303-308) -/
noncomputable def rotate (angle : ℝ) (v : ℝ × ℝ) : ℝ × ℝ :=
  (Real.cos angle * v.1 + -Real.sin angle * v.2, Real.sin angle * v.1 + Real.cos angle * v.2)

/-- `math.atan2(y, x)` -/
noncomputable def atan2 (y x : ℝ) : ℝ := Complex.arg ⟨x, y⟩

/-- `compile_edge` (draw.py:246-275) with `is_dashed` (draw.py:295-301). -/
noncomputable def compileEdge (r : Renderer S V X L) (start end' : ℝ × ℝ) : List Entity :=
  let inclination := atan2 (end'.2 - start.2) (end'.1 - start.1)
  let vec := rotate inclination (-r.nodeRadius, 0)
  let crossing := (end'.1 + vec.1, end'.2 + vec.2)
  .line start.1 start.2 r.colours.edge end'.1 end'.2 r.lineWidth false ::
  [(-1 : ℝ), 1].map fun s =>
    let displacement := rotate (s * (Real.pi / 7) + inclination) (-10, 0)
    .line crossing.1 crossing.2 r.colours.edge (crossing.1 + displacement.1)
      (crossing.2 + displacement.2) r.lineWidth false

/-- `compile_node` (draw.py:214-244). -/
noncomputable def compileNode (r : Renderer S V X L) (hint : NodeHint S V X) (label : L)
    (coords : ℝ × ℝ) : Except PyErr (List Entity) := do
  let (nodeC, labelC, borderC) ← r.colours.node hint
  let border : List Entity :=
    if r.nodeBorderWidth > 0 then [.circle coords.1 coords.2 borderC r.nodeRadius none] else []
  return border ++ [.circle coords.1 coords.2 nodeC (r.nodeRadius - r.nodeBorderWidth)
    (some { x := coords.1, y := coords.2, colour := labelC, text := r.str label, size := r.fontSize,
            overflowBackground := r.colours.background })]

/-- `compile_animation_progress_rect` (draw.py:277-293). -/
noncomputable def progressRect (r : Renderer S V X L) (height : Int) (progress : ℝ) : Entity :=
  .rect 0 (height - 5) r.colours.progress (r.width * progress) 5

/-- Concatenation of the pieces yielded for the members of a list. -/
def yields {β γ : Type} (l : List β) (f : β → Except PyErr (List γ)) : Except PyErr (List γ) :=
  match l with
  | [] => .ok []
  | b :: bs => do
    let x ← f b
    let y ← yields bs f
    return x ++ y

/-- The dictionaries of labels (draw.py:118-128). -/
def labels (r : Renderer S V X L) (d : Dataset S V X α) :
    Except PyErr (Dict Nat L × Dict Nat L × Dict Nat L) := do
  let sourceLabels ← d.sourceIds.values.foldlM (fun (acc : Dict Nat L) i => do
    return acc.set i (r.srcLabel (← d.sourceIds.inv i))) []
  let varLabels ← d.varIds.values.foldlM (fun (acc : Dict Nat L) i => do
    return acc.set i (r.varLabel (← d.varIds.inv i))) []
  let claimLabels ← d.claimIds.foldlM (fun (acc : Dict Nat L) p => do
    return acc.set p.2 (r.claimLabel (← d.varIds.inv p.1.1) (← d.valHashes.inv p.1.2))) []
  return (sourceLabels, varLabels, claimLabels)

/-- Coordinates given to the nodes in sorted order (draw.py:60-62, 68-70, 135-136, 144-145). -/
def place (coord : Nat → ℝ × ℝ) (sorted : List Nat) : Dict Nat (ℝ × ℝ) :=
  Dict.ofPairs ((enum sorted).map fun p => (p.2, coord p.1))

/-- Sort keys of claims (draw.py:140-143). -/
def claimSortKeys (d : Dataset S V X α) (varLabels claimLabels : Dict Nat L) :
    Except PyErr (Dict Nat (L × L)) :=
  d.claimIds.foldlM (fun (acc : Dict Nat (L × L)) p => do
    return acc.set p.2 (← varLabels.get p.1.1, ← claimLabels.get p.2)) []

/-- `np.mean(l)`; the lists that occur are not empty. -/
noncomputable def mean (l : List ℝ) : ℝ := l.sum / l.length

/-- Coordinates of the variables (draw.py:64-66, 146-153). -/
noncomputable def varCoords (r : Renderer S V X L) (d : Dataset S V X α) (varLabels : Dict Nat L)
    (claimCoords : Dict Nat (ℝ × ℝ)) : Except PyErr (Dict Nat (ℝ × ℝ)) :=
  (sortKeysByValue r.lt varLabels).foldlM (fun (acc : Dict Nat (ℝ × ℝ)) i => do
    let ys ← (d.claimIds.filter fun p => decide (p.1.1 = i)).mapM fun p => do
      return (← claimCoords.get p.2).2
    return acc.set i (r.width - r.nodeRadius, mean ys)) []

/-- The three dictionaries of coordinates (draw.py:130-153). -/
noncomputable def coords (r : Renderer S V X L) (height : Int) (d : Dataset S V X α)
    (sourceLabels varLabels claimLabels : Dict Nat L) :
    Except PyErr (Dict Nat (ℝ × ℝ) × Dict Nat (ℝ × ℝ) × Dict Nat (ℝ × ℝ)) := do
  let sourceCoords := place (fun i => (r.nodeRadius, r.yCoord height i d.mats.numSources))
    (sortKeysByValue r.lt sourceLabels)
  let keys ← claimSortKeys d varLabels claimLabels
  let claimCoords := place (fun i => (r.width / 2, r.yCoord height i d.mats.numClaims))
    (sortKeysByValue r.ltPair keys)
  let varCoords ← r.varCoords d varLabels claimCoords
  return (sourceCoords, varCoords, claimCoords)

/-- The entities after the background (draw.py:155-203).  Hints of edges are not
modelled (they are not used). -/
noncomputable def body (r : Renderer S V X L) (height : Int) (d : Dataset S V X α)
    (progress : Option ℝ) : Except PyErr (List Entity) := do
  let (sourceLabels, varLabels, claimLabels) ← r.labels d
  let (sourceCoords, varCoords, claimCoords) ← r.coords height d sourceLabels varLabels claimLabels
  let edges ← yields d.mats.sc.nonzero fun p => do
    let c ← d.claimIds.inv p.2
    let _ ← d.sourceIds.inv p.1
    let _ ← d.valHashes.inv c.2
    return r.compileEdge (← sourceCoords.get p.1) (← claimCoords.get p.2)
  let claims ← yields d.claimIds fun p => do
    let x ← d.valHashes.inv p.1.2
    let v ← d.varIds.inv p.1.1
    let at' ← claimCoords.get p.2
    let edge := r.compileEdge at' (← varCoords.get p.1.1)
    return edge ++ (← r.compileNode (.claim v x) (← claimLabels.get p.2) at')
  let vars ← yields d.varIds fun p => do
    r.compileNode (.var p.1) (← varLabels.get p.2) (← varCoords.get p.2)
  let srcs ← yields d.sourceIds fun p => do
    r.compileNode (.source p.1) (← sourceLabels.get p.2) (← sourceCoords.get p.2)
  let bar : List Entity := match progress with
    | none => []
    | some x => [r.progressRect height x]
  return edges ++ claims ++ vars ++ srcs ++ bar

/-- The mutable attributes `height` and `dataset` (draw.py:41, 51).  (`colours` is also
assigned to, by animations: a renderer with other colours is another `Renderer`.) -/
structure State (S V X α : Type) where
  height : Option Int := none
  dataset : Option (Dataset S V X α) := none

/-- `list(renderer.compile(dataset, animation_progress))` (draw.py:106-203); returns the
new attributes too.  Simplification: the generator is exhausted before another one
is started. -/
noncomputable def compile (r : Renderer S V X L) (st : State S V X α) (d : Dataset S V X α)
    (progress : Option ℝ) : State S V X α × Except PyErr (List Entity) :=
  let height := match st.height with
    | none => r.getHeight d
    | some h => if h = 0 then r.getHeight d else h
  let st : State S V X α := { st with height := some height }
  let background : Entity := .rect 0 0 r.colours.background r.width height
  let st : State S V X α := { st with dataset := some d }
  (st, match st.dataset with
    | none => .error .attributeError
    | some d => do
      let rest ← r.body height d progress
      return background :: rest)

/-- `render` (draw.py:94-104): what is handed to the backend (entities, width,
height). -/
noncomputable def render (r : Renderer S V X L) (st : State S V X α) (d : Dataset S V X α)
    (progress : Option ℝ) : State S V X α × Except PyErr (List Entity × ℝ × Int) :=
  let st : State S V X α := { st with height := some (r.getHeight d) }
  let (st, es) := r.compile st d progress
  (st, do return (← es, r.width, st.height.getD 0))

end Renderer

/-- `MatrixDatasetGraphRenderer` (draw.py:311-337): `strNat` is `str` of an int,
`strVal` of a value. -/
noncomputable def matrixRenderer {X : Type} (base : Renderer Nat Nat X Text) (zeroIndexed : Bool)
    (strNat : Nat → Text) (strVal : X → Text) : Renderer Nat Nat X Text :=
  let fmt (i : Nat) : Text := strNat (if zeroIndexed then i else i + 1)
  { base with
    srcLabel := fun i => 's' :: fmt i
    varLabel := fun i => 'v' :: fmt i
    claimLabel := fun i x =>
      let val := strVal x
      let val := if ['.', '0'].isSuffixOf val then val.take (val.length - 2) else val
      'v' :: fmt i ++ '=' :: val
    str := id }

end TD
