import Verif.Model.Page
import Verif.Spec.Canvas
import Verif.Spec.Web
/-!
# What the page with the results should show
-/

namespace TD.Spec

/-- The pictures can be drawn, and the animation, if there is one, has frames. -/
structure ProperOut (o : JsOut) : Prop where
  graph : ∃ f, readDoc o.graph = some f ∧ ∀ e ∈ f.1, Drawable e
  animation : ∀ doc, o.animation = some doc → ∃ fps fs, readAnimation doc = some (fps, fs) ∧ fs ≠ [] ∧
    ∀ f ∈ fs, ∀ e ∈ f.1, Drawable e

/-- How a request ended. -/
inductive Outcome
  | ok (data : List (Text × JsOut)) (messages : List Text)
  | failed (message : Option Text)

/-- A proper answer to a request: an object with the outputs of the algorithms requested. -/
def ProperAnswer (sel : Selection) : Outcome → Prop
  | .failed _ => True
  | .ok data _ => (data.map Prod.fst).Nodup ∧ data ≠ [] ∧ (∀ x ∈ data, ProperOut x.2) ∧
      ∀ label, sel = .many [label] → ∃ o, data = [(label, o)]

/-- A visit of the page: the requests that have been answered (with their outcomes, in the order
of the answers), those that have not, and the state of the page. -/
inductive Visit (measure : ℝ → Text → ℝ) (upper : Char → Char) :
    List (Selection × Outcome) → List Selection → JsPage → Prop
  | start : Visit measure upper [] [] {}
  | submit (h : List (Selection × Outcome)) (open' : List Selection) (p p' : JsPage) (sel : Selection)
      (hv : Visit measure upper h open' p) (he : p.event measure upper (.submit sel) = some p') :
      Visit measure upper h (open' ++ [sel]) p'
  | answer (h : List (Selection × Outcome)) (open' : List Selection) (p p' : JsPage) (sel : Selection) (i : Nat)
      (data : List (Text × JsOut)) (messages : List Text)
      (hv : Visit measure upper h open' p) (hi : open'[i]? = some sel)
      (he : p.event measure upper (.answer i data messages) = some p') :
      Visit measure upper (h ++ [(sel, .ok data messages)]) (open'.eraseIdx i) p'
  | failure (h : List (Selection × Outcome)) (open' : List Selection) (p p' : JsPage) (sel : Selection) (i : Nat)
      (message : Option Text)
      (hv : Visit measure upper h open' p) (hi : open'[i]? = some sel)
      (he : p.event measure upper (.failure i message) = some p') :
      Visit measure upper (h ++ [(sel, .failed message)]) (open'.eraseIdx i) p'
  | tab (h : List (Selection × Outcome)) (open' : List Selection) (p p' : JsPage) (label : Text)
      (hv : Visit measure upper h open' p) (he : p.event measure upper (.tab label) = some p') :
      Visit measure upper h open' p'
  | animation (h : List (Selection × Outcome)) (open' : List Selection) (p p' : JsPage) (label : Text) (o : JsAnimatorOp)
      (hv : Visit measure upper h open' p) (he : p.event measure upper (.animation label o) = some p') :
      Visit measure upper h open' p'

/-- The last successful answer. -/
def lastAnswer : List (Selection × Outcome) → Option (Selection × List (Text × JsOut) × List Text)
  | [] => none
  | (sel, o) :: h => match lastAnswer h with
    | some x => some x
    | none => match o with
      | .ok data messages => some (sel, data, messages)
      | .failed _ => none

/-- The last successful answer that contains an output for this algorithm, and this output. -/
def lastOutput (label : Text) : List (Selection × Outcome) → Option JsOut
  | [] => none
  | (_, o) :: h => match lastOutput label h with
    | some x => some x
    | none => match o with
      | .ok data _ => Dict.get? data label
      | .failed _ => none

/-- The last output for this algorithm that has an animation. -/
def lastAnimation (label : Text) : List (Selection × Outcome) → Option Json
  | [] => none
  | (_, o) :: h => match lastAnimation label h with
    | some x => some x
    | none => match o with
      | .ok data _ => (Dict.get? data label).bind JsOut.animation
      | .failed _ => none

/-! ### Sorting -/

/-- The columns of the tables. -/
def HasCol : ResultTable → ResultCol → Prop
  | .trust, c => c = .source ∨ c = .trust
  | .belief, c => c = .val ∨ c = .belief

/-- The column by which a table is sorted at first. -/
def firstCol : ResultTable → ResultCol
  | .trust => .source
  | .belief => .val

/-- The columns of a table on which the user clicked, last one first. -/
def clicksOn (t : ResultTable) (clicks : List (ResultTable × ResultCol)) : List ResultCol :=
  (clicks.filter fun c => decide (c.1 = t)).reverse.map Prod.snd

/-- Number of clicks on the column since another column was clicked. -/
def trailing (c : ResultCol) (l : List ResultCol) : Nat := (l.takeWhile fun d => decide (d = c)).length

/-! ### Tables -/

/-- The filter `number:7` gives a decimal with seven places, which can be read back unless it
has a separator of thousands. -/
structure JsEnvOk (env : JsEnv) : Prop where
  small : ∀ x : ℝ, |x| < 999 → ∃ y, env.number (env.number7 x) = some y ∧ |y - x| ≤ 1 / 10 ^ 7 ∧
    (0 ≤ x → 0 ≤ y) ∧ (x ≤ 0 → y ≤ 0)
  large : ∀ x : ℝ, 1000 ≤ |x| → env.number (env.number7 x) = none

/-- The score of a row is largest. -/
def Largest (l : List (Text × ℝ)) (x : ℝ) : Prop := ∀ y ∈ l, y.2 ≤ x

/-- The rows show the entries `l`: each one exactly once, by the column chosen. -/
structure RowsOf (env : JsEnv) (l : List (Text × ℝ)) (byScore ascending : Bool) (diff : Text → Option ℝ)
    (rows : List ResultRow) : Prop where
  all : (rows.map fun r => (r.key, r.score)).Perm l
  order : rows.Pairwise fun a b => match byScore, ascending with
    | true, true => a.score ≤ b.score
    | true, false => b.score ≤ a.score
    | false, true => a.key ≤ b.key
    | false, false => b.key ≤ a.key
  bold : ∀ r ∈ rows, (r.bold = true ↔ Largest l r.score)
  number : ∀ r ∈ rows, r.number = (env.number r.key).map (· + 1)
  /-- green and red show larger and smaller scores -/
  colour : ∀ r ∈ rows, (r.differenceClass = .success ↔ ∃ d, diff r.key = some d ∧ 0 < d) ∧
    (r.differenceClass = .error ↔ ∃ d, diff r.key = some d ∧ d < 0)
  difference : ∀ r ∈ rows, r.difference = match diff r.key with
    | none => []
    | some d => formatDiff env (some (env.number7 d))

/-- The output as it arrives in the browser: keys are texts, numbers are numbers; the order of
the entries is that of JavaScript. -/
structure Received {X : Type} [DecidableEq X] (env : Env X .exact) (out : WebOut X Ex) (o : JsOut) : Prop where
  trust : ∀ t, out.fields.get? .trust = some (.trust t) →
    (o.scores.trust.map fun p => (p.1, Ex.fin p.2)).Perm (t.map fun p => (env.strNat p.1, p.2))
  belief : ∀ b, out.fields.get? .belief = some (.belief b) →
    ∃ b' : List (Text × List (Text × ℝ)), b'.Perm o.scores.belief ∧
      List.Forall₂ (fun (x : Text × List (Text × ℝ)) (y : Nat × Dict X Ex) => x.1 = env.strNat y.1 ∧
        (x.2.map fun p => (p.1, Ex.fin p.2)).Perm (y.2.map fun p => (env.strVal p.1, p.2))) b' b
  graph : o.graph = out.graph
  animation : o.animation = out.animation
  no_diff : out.diff = none → o.diff = none
  diff : ∀ D, out.diff = some D → ∃ E, o.diff = some E ∧
    (∀ k, (Dict.get? E.trust k).map Ex.fin = D.trust.get? k) ∧
    ∀ k k', (beliefAt E.belief k k').map Ex.fin = beliefAt D.belief k k'

/-- The answer as it arrives in the browser. -/
def ReceivedAll {X : Type} [DecidableEq X] (env : Env X .exact) (data : Dict Text (WebOut X Ex)) (data' : List (Text × JsOut)) : Prop :=
  (data'.map Prod.fst).Nodup ∧ (∀ label, label ∈ data'.map Prod.fst ↔ label ∈ data.keys) ∧
    ∀ label o, (label, o) ∈ data' → ∃ out, data.get? label = some out ∧ Received env out o

/-- The scores shown are those of `p` for the triples `l`: each source with its trust, each
variable with its values and their belief, exactly once. -/
structure ScoresOf {X : Type} [DecidableEq X] (env : Env X .exact) (l : List (Nat × Nat × X)) (p : Scores Nat Nat X)
    (o : JsScores) : Prop where
  sources_once : (o.trust.map Prod.fst).Nodup
  trust : ∀ t x, (t, x) ∈ o.trust ↔ ∃ s ∈ allSources l, t = env.strNat s ∧ x = p.1 s
  vars_once : (o.belief.map Prod.fst).Nodup
  vars : ∀ t, t ∈ o.belief.map Prod.fst ↔ ∃ v x, (v, x) ∈ allClaims l ∧ t = env.strNat v
  values_once : ∀ t d, (t, d) ∈ o.belief → (d.map Prod.fst).Nodup
  belief : ∀ v d, (env.strNat v, d) ∈ o.belief → ∀ u y, (u, y) ∈ d ↔
    ∃ x, (v, x) ∈ allClaims l ∧ u = env.strVal x ∧ y = p.2 (v, x)

end TD.Spec
