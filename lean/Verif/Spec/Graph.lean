import Verif.Model.Graph
import Verif.Spec.Dataset
import Mathlib.Data.Prod.Lex
import Mathlib.Data.List.Defs
/-!
# What the drawing of a dataset should look like
-/

namespace TD.Spec

/-- Number of members of `L` before `x` when sorted by `key`, equal keys in the order
of `L`. -/
def posOf {β K : Type} [DecidableEq β] [LinearOrder K] (key : β → K) (L : List β) (x : β) : Nat :=
  (L.filter fun y => decide (key y < key x)).length +
  ((L.takeWhile fun y => decide (y ≠ x)).filter fun y => decide (key y = key x)).length

section
variable {S V X L : Type} [DecidableEq S] [DecidableEq V] [DecidableEq X] [LinearOrder L]
variable (r : Renderer S V X L) (l : List (S × V × X)) (H : Int)

/-- Vertical position number `i` of `n` in a picture of height `H`: evenly spaced from
`nodeRadius` to `H - nodeRadius`; a single node is in the middle. -/
noncomputable def level (i n : Nat) : ℝ :=
  if n ≤ 1 then (H : ℝ) / 2
  else r.nodeRadius + i * ((H - 2 * r.nodeRadius) / ((n : ℝ) - 1))

/-- Sources are on the left, in the order of their labels. -/
noncomputable def sourceAt (s : S) : ℝ × ℝ :=
  (r.nodeRadius, level r H (posOf r.srcLabel (sources l) s) (sources l).length)

/-- Claims are in the middle, by variable label and then by claim label. -/
noncomputable def claimAt (c : V × X) : ℝ × ℝ :=
  (r.width / 2, level r H
    (posOf (fun c : V × X => toLex (r.varLabel c.1, r.claimLabel c.1 c.2)) (claims l) c)
    (claims l).length)

/-- Variables are on the right, at the average height of their claims. -/
noncomputable def variableAt (v : V) : ℝ × ℝ :=
  let ys := ((claims l).filter fun c => decide (c.1 = v)).map fun c => (claimAt r l H c).2
  (r.width - r.nodeRadius, ys.sum / ys.length)

/-- Where a node is drawn. -/
noncomputable def nodeAt : NodeHint S V X → ℝ × ℝ
  | .source s => sourceAt r l H s
  | .claim v x => claimAt r l H (v, x)
  | .var v => variableAt r l H v

/-- Unit vector from `a` to `b`. -/
noncomputable def unit (a b : ℝ × ℝ) : ℝ × ℝ :=
  let d := Real.sqrt ((b.1 - a.1) ^ 2 + (b.2 - a.2) ^ 2)
  if d = 0 then (1, 0) else ((b.1 - a.1) / d, (b.2 - a.2) / d)

/-- Where an edge from `a` meets the circle around `b`. -/
noncomputable def tip (a b : ℝ × ℝ) : ℝ × ℝ :=
  (b.1 - r.nodeRadius * (unit a b).1, b.2 - r.nodeRadius * (unit a b).2)

/-- End of a wing of the arrow head: 10 backwards from the tip, turned by `angle`. -/
noncomputable def wing (a b : ℝ × ℝ) (angle : ℝ) : ℝ × ℝ :=
  let u := unit a b
  ((tip r a b).1 - 10 * (Real.cos angle * u.1 - Real.sin angle * u.2),
   (tip r a b).2 - 10 * (Real.sin angle * u.1 + Real.cos angle * u.2))

/-- A straight line. -/
def segment (a b : ℝ × ℝ) : Entity :=
  .line a.1 a.2 r.colours.edge b.1 b.2 r.lineWidth false

/-- An edge: a line between the centres and two lines for the arrow head. -/
noncomputable def edge (a b : ℝ × ℝ) : List Entity :=
  [segment r a b, segment r (tip r a b) (wing r a b (-(Real.pi / 7))),
   segment r (tip r a b) (wing r a b (Real.pi / 7))]

/-- A node: the border (if any), and the disc with the label. -/
noncomputable def node (colour : Colour × Colour × Colour) (text : Text) (p : ℝ × ℝ) : List Entity :=
  (if 0 < r.nodeBorderWidth then [Entity.circle p.1 p.2 colour.2.2 r.nodeRadius none] else []) ++
  [.circle p.1 p.2 colour.1 (r.nodeRadius - r.nodeBorderWidth)
    (some ⟨p.1, p.2, colour.2.1, text, r.fontSize, r.colours.background⟩)]

/-- The (source, claim) pairs of the dataset, by source and then by claim. -/
def madeClaims : List (S × V × X) :=
  (sources l).flatMap fun s =>
    ((claims l).filter fun c => decide ((s, c.1, c.2) ∈ recorded l)).map fun c => (s, c.1, c.2)

/-- The nodes of the graph of a dataset. -/
inductive IsNode : NodeHint S V X → Prop
  | source (s : S) (h : s ∈ sources l) : IsNode (.source s)
  | claim (c : V × X) (h : c ∈ claims l) : IsNode (.claim c.1 c.2)
  | var (v : V) (h : v ∈ vars l) : IsNode (.var v)

/-- The whole picture: background, one edge per claim made by a source, every claim
with its edge to its variable, the variables, the sources, the progress bar. -/
noncomputable def picture (colour : NodeHint S V X → Colour × Colour × Colour) (progress : Option ℝ) :
    List Entity :=
  [.rect 0 0 r.colours.background r.width H] ++
  ((madeClaims l).flatMap fun t => edge r (sourceAt r l H t.1) (claimAt r l H t.2)) ++
  ((claims l).flatMap fun c => edge r (claimAt r l H c) (variableAt r l H c.1) ++
    node r (colour (.claim c.1 c.2)) (r.str (r.claimLabel c.1 c.2)) (claimAt r l H c)) ++
  ((vars l).flatMap fun v =>
    node r (colour (.var v)) (r.str (r.varLabel v)) (variableAt r l H v)) ++
  ((sources l).flatMap fun s =>
    node r (colour (.source s)) (r.str (r.srcLabel s)) (sourceAt r l H s)) ++
  (match progress with
    | none => []
    | some x => [.rect 0 (H - 5) r.colours.progress (r.width * x) 5])

/-- Largest number of nodes of one kind. -/
def maxNodes : Nat := max (max (sources l).length (claims l).length) (vars l).length

/-- The height of the picture: room for the largest kind of nodes, as an integer. -/
noncomputable def heightOf : Int :=
  truncInt (maxNodes l * 2 * r.nodeRadius + ((maxNodes l : ℝ) - 1) * r.spacing)

end
end TD.Spec

namespace TD.Spec

/-- Number of the colour (0 to 8) for a score: how many of 1/9, 2/9, …, 8/9 it reaches. -/
noncomputable def shade (x : ℝ) : Nat :=
  ((List.range 8).filter fun i : Nat => decide (((i : ℝ) + 1) / 9 ≤ x)).length

/-- Labels are black on light nodes and white on dark ones. -/
noncomputable def labelShade (x : ℝ) : Colour := if x < 1 / 2 then [0, 0, 0] else [1, 1, 1]

end TD.Spec

namespace TD.Spec
variable {S V X : Type}

/-- Nine shades of green, from pale to dark (colorbrewer2.org, "Greens", n = 9). -/
noncomputable def greens : List Colour :=
  [[0.9686274509803922, 0.9882352941176471, 0.9607843137254902],
   [0.8980392156862745, 0.9607843137254902, 0.8784313725490196],
   [0.7803921568627451, 0.9137254901960784, 0.7529411764705882],
   [0.6313725490196078, 0.8509803921568627, 0.6078431372549019],
   [0.4549019607843137, 0.7686274509803922, 0.4627450980392157],
   [0.2549019607843137, 0.6705882352941176, 0.36470588235294116],
   [0.13725490196078433, 0.5450980392156862, 0.27058823529411763],
   [0.0, 0.42745098039215684, 0.17254901960784313],
   [0.0, 0.26666666666666666, 0.10588235294117647]]

/-- `d` is darker than `c`: no component is larger, and some component is smaller. -/
def Darker (c d : Colour) : Prop :=
  List.Forall₂ (fun x y : ℝ => y ≤ x) c d ∧ ∃ p ∈ c.zip d, p.2 < p.1

/-- White, black, grey. -/
noncomputable def grey (x : ℝ) : Colour := [x, x, x]

/-- The colours (disc, label, border) of a node when sources are coloured by trust and
claims by belief: one of nine shades of green; variables are red. -/
noncomputable def scoreColour (p : (S → ℝ) × (V × X → ℝ)) : NodeHint S V X → Colour × Colour × Colour
  | .source s => (greens.getD (shade (p.1 s)) [], labelShade (p.1 s), [0.15, 0.15, 0.15])
  | .claim v x =>
    (greens.getD (shade (p.2 (v, x))) [], labelShade (p.2 (v, x)), [0.15, 0.15, 0.15])
  | .var _ => ([0.667, 0.224, 0.224], [1, 1, 1], [0.15, 0.15, 0.15])

/-- `val` without a trailing ".0". -/
def withoutPointZero (val : Text) : Text :=
  if ['.', '0'].isSuffixOf val then val.take (val.length - 2) else val

end TD.Spec
