import Verif.Model.Page
import Verif.Spec.Diff
import Verif.Model.AnswerText
/-!
# What the page reads from the text of an answer

JavaScript objects are read by name, and enumerated in an order of JavaScript's choice (names that are numbers come first).
-/

namespace TD.Spec

/-- `w` is an object whose member `name` is `v`. -/
def Member {α : Type} (w : WJson α) (name : String) (v : WJson α) : Prop :=
  ∃ fs, w = .obj fs ∧ Dict.get? fs name.toList = some v

/-- `w` is an object without a member `name`. -/
def NoMember {α : Type} (w : WJson α) (name : String) : Prop :=
  ∃ fs, w = .obj fs ∧ Dict.get? fs name.toList = none

/-- `w` is an object whose members are the numbers `l`, in any order. -/
def NumbersOf (w : WJson Ex) (l : List (Text × ℝ)) : Prop :=
  ∃ fs, w = .obj fs ∧ (l.map fun p => (p.1, WJson.num (Ex.fin p.2))).Perm fs

/-- `w` is an object whose members are the objects of numbers `l`, in any order. -/
def ObjectsOf (w : WJson Ex) (l : List (Text × List (Text × ℝ))) : Prop :=
  ∃ fs l', w = .obj fs ∧ l'.Perm l ∧
    List.Forall₂ (fun (x : Text × List (Text × ℝ)) (y : Text × WJson Ex) => x.1 = y.1 ∧ NumbersOf y.2 x.2) l' fs

/-- `response.data.data[label]` is read as `o` (app.js:67, 85-95, results.html). -/
structure JsReads (Js : JsonReader ℝ) (w : WJson Ex) (o : JsOut) : Prop where
  trust : ∃ t, Member w "trust" t ∧ NumbersOf t o.scores.trust
  belief : ∃ b, Member w "belief" b ∧ ObjectsOf b o.scores.belief
  time : Member w "time" (.num (Ex.fin o.scores.time))
  iterations : Member w "iterations" (match o.scores.iterations with
    | none => .null
    | some n => .num (Ex.fin n))
  graph : ∃ im t, Member w "imagery" im ∧ Member im "graph" (.str t) ∧ (parseJson Js t).map Json.ofW = some o.graph
  animation : ∃ im, Member w "imagery" im ∧ match o.animation with
    | none => NoMember im "animation"
    | some doc => ∃ t, Member im "animation" (.str t) ∧ (parseJson Js t).map Json.ofW = some doc
  diff : match o.diff with
    | none => NoMember w "diff"
    | some E => ∃ D t b, Member w "diff" D ∧ Member D "trust" t ∧ NumbersOf t E.trust ∧ Member D "belief" b ∧ ObjectsOf b E.belief

/-- `response.data` is read as the outputs `data` and the messages. -/
def JsReadsAll (Js : JsonReader ℝ) (w : WJson Ex) (data : List (Text × JsOut)) (messages : List Text) : Prop :=
  Member w "ok" (.bool true) ∧ Member w "messages" (.arr (messages.map .str)) ∧
  ∃ fs data', Member w "data" (.obj fs) ∧ data'.Perm data ∧
    List.Forall₂ (fun (x : Text × JsOut) (y : Text × WJson Ex) => x.1 = y.1 ∧ JsReads Js y.2 x.2) data' fs

/-- The styles of Flask (debug mode or not). -/
def FlaskStyle (st : JsonStyle) : Prop := st = .compact ∨ st = .indented

/-- The texts written for keys and values are those of the server. -/
structure SameTexts {X : Type} (env : Env X .exact) (aenv : AnswerEnv X Ex) : Prop where
  nat : aenv.strNat = env.strNat
  val : aenv.strVal = env.strVal

/-- A number among the differences of the answer. -/
inductive Difference {X α : Type} (out : WebOut X α) (x : α) : Prop
  | trust (D : RawDiff α) (h : out.diff = some D) (k : Text) (hx : D.trust.get? k = some x)
  | belief (D : RawDiff α) (h : out.diff = some D) (k k' : Text) (hx : beliefAt D.belief k k' = some x)
  | time (D : RawDiff α) (h : out.diff = some D) (hx : D.time = x)
  | iterations (D : RawDiff α) (h : out.diff = some D) (hx : D.iterations = some x)

/-- A trust or belief score in the answer. -/
inductive ScoreIn {X α : Type} [DecidableEq X] (out : WebOut X α) (x : α) : Prop
  | trust (t : Dict Nat α) (h : out.fields.get? .trust = some (.trust t)) (s : Nat) (hx : t.get? s = some x)
  | belief (b : Dict Nat (Dict X α)) (h : out.fields.get? .belief = some (.belief b)) (v : Nat) (y : X)
      (hx : beliefAt b v y = some x)

end TD.Spec
