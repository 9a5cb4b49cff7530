import Verif.Model.Web
import Verif.Spec.Client
import Verif.Spec.Matrix
import Verif.Spec.Backends
import Verif.Spec.Sound
import Verif.Spec.Diff
import Mathlib.Data.List.Lex
import Mathlib.Data.Char
import Mathlib.Data.List.Defs
/-!
# What a web request should be answered with
-/

namespace TD.Spec

/-- The text of the request parameter "parameters" means this dictionary: every line is an
assignment; the last line for a name counts. -/
def ParamsMean {α : Type} (digit : Char → Option Nat) (parseFloat : Text → Option α)
    (text : Option Text) (ps : Dict Text (PVal α)) : Prop :=
  match text with
  | none => ps = []
  | some t => ∃ (lines : List Text) (kvs : List (Text × PVal α)), Separated '\n' t lines ∧
      List.Forall₂ (fun line kv => ∃ value, Assignment line kv.1 value ∧
        Means digit parseFloat kv.1 value kv.2) lines kvs ∧
      (∀ k, ps.get? k = (kvs.reverse.find? fun kv => decide (kv.1 = k)).map Prod.snd) ∧ ps.keys.Nodup

section
variable {X : Type} [DecidableEq X]

/-- A dictionary of numbers as JSON. -/
def numsObj {α : Type} (d : Dict Text α) : WJson α := .obj (d.map fun p => (p.1, .num p.2))

/-- A JSON value that contains an earlier result. -/
structure Earlier {α : Type} (j : WJson α) (trust : Dict Text α) (belief : Dict Text (Dict Text α)) (time : α)
    (iterations : Option α) : Prop where
  fields : ∃ fs, j = .obj fs ∧ Dict.get? fs "trust".toList = some (numsObj trust) ∧
    Dict.get? fs "belief".toList = some (.obj (belief.map fun p => (p.1, numsObj p.2))) ∧
    Dict.get? fs "time".toList = some (.num time) ∧
    Dict.get? fs "iterations".toList = some (match iterations with
      | none => .null
      | some x => .num x)
  unique : trust.keys.Nodup ∧ belief.keys.Nodup ∧ ∀ v b, belief.get? v = some b → b.keys.Nodup

/-- The text is not JSON, or an object without one of the required fields. -/
def BadPrevious {α : Type} (parseJson : Text → Option (WJson α)) (t : Text) : Prop :=
  parseJson t = none ∨ ∃ fs, parseJson t = some (.obj fs) ∧
    ∃ n ∈ ["trust", "belief", "time", "iterations"], Dict.get? fs n.toList = none

/-- "previous_results" is absent, bad, or contains an earlier result. -/
inductive PreviousOk {α : Type} (parseJson : Text → Option (WJson α)) : Option Text → Prop
  | absent : PreviousOk parseJson none
  | bad (t : Text) (h : BadPrevious parseJson t) : PreviousOk parseJson (some t)
  | good (t : Text) (j : WJson α) (trust : Dict Text α) (belief : Dict Text (Dict Text α)) (time : α)
      (iterations : Option α) (h : parseJson t = some j) (he : Earlier j trust belief time iterations) :
      PreviousOk parseJson (some t)

/-- The status of the answer if this algorithm (number `i` of the request) fails. -/
inductive Fails {R : Rounding} (env : Env X R) (prev : Option Text) (ps : Dict Text (PVal (FP R)))
    (d : Dataset Nat Nat X (FP R)) (i : Nat) (label : Text) : Nat → Prop
  /-- no such algorithm -/
  | unknown (h : ∀ c, label ≠ (labelName c).toList) : Fails env prev ps d i label 400
  /-- `EmptyDatasetError` -/
  | empty (c : AlgLabel) (a : AnyAlg (FP R)) (h1 : label = (labelName c).toList) (h2 : Constructed ps c a)
      (h3 : a.run d env.fuel (env.clock (2 * i)) = .error .emptyDataset) : Fails env prev ps d i label 400
  /-- `ConvergenceError` -/
  | diverged (c : AlgLabel) (a : AnyAlg (FP R)) (h1 : label = (labelName c).toList) (h2 : Constructed ps c a)
      (h3 : a.run d env.fuel (env.clock (2 * i)) = .error .convergence) : Fails env prev ps d i label 500
  /-- "previous_results" is bad -/
  | previous (c : AlgLabel) (a : AnyAlg (FP R)) (r : Result Nat Nat X (FP R)) (t : Text)
      (h1 : label = (labelName c).toList) (h2 : Constructed ps c a)
      (h3 : a.run d env.fuel (env.clock (2 * i)) = .ok r) (h4 : prev = some t)
      (h5 : BadPrevious env.parseJson t) : Fails env prev ps d i label 400

/-- The entries of "diff": current minus earlier scores of the common sources and claims
(named by the texts of their labels), and nothing else. -/
structure Compared {R : Rounding} (env : Env X R) (r : Result Nat Nat X (FP R)) (trust : Dict Text (FP R))
    (belief : Dict Text (Dict Text (FP R))) (time : FP R) (iterations : Option (FP R))
    (d : RawDiff (FP R)) : Prop where
  trust_of : ∀ s, d.trust.get? (env.strNat s) = minus (trust.get? (env.strNat s)) (r.trust.get? s)
  trust_only : ∀ k x, d.trust.get? k = some x → ∃ s, k = env.strNat s
  belief_of : ∀ v x, beliefAt d.belief (env.strNat v) (env.strVal x) =
    minus (beliefAt belief (env.strNat v) (env.strVal x)) (beliefAt r.belief v x)
  belief_only : ∀ k k' y, beliefAt d.belief k k' = some y → ∃ v x, k = env.strNat v ∧ k' = env.strVal x
  nonempty : ∀ k b, d.belief.get? k = some b → b ≠ []
  time_of : d.time = r.time -. time
  iterations_of : d.iterations = minus iterations (r.iterations.map Arith.ofNat)

/-- How the server draws: an image of width 800, nodes of radius 40 at distances 20, text of
size 20; rows are `s1`, `s2`, .., columns `v1`, `v2`, .., claims `v<column>=<value>`. -/
noncomputable def webDrawing (env : Env X .exact) : Renderer Nat Nat X Text where
  width := 800
  nodeRadius := 40
  spacing := 20
  lineWidth := 3
  nodeBorderWidth := 3
  fontSize := 20
  colours := defaultScheme
  srcLabel := fun i => "s".toList ++ env.strNat (i + 1)
  varLabel := fun i => "v".toList ++ env.strNat (i + 1)
  claimLabel := fun i x => "v".toList ++ (env.strNat (i + 1) ++ ("=".toList ++ withoutPointZero (env.strVal x)))
  lt := fun a b => decide (a < b)
  str := id

/-- Entities, width and height of the picture for scores `p`. -/
noncomputable def webPicture (env : Env X .exact) (l : List (Nat × Nat × X)) (p : Scores Nat Nat X) :
    List Entity × ℝ × ℝ :=
  let r := webDrawing env
  (picture r l (heightOf r l) (scoreColour p) none, 800, heightOf r l)

/-- `out` is a proper output for algorithm `a`, number `i` of the request. -/
structure Presented (env : Env X .exact) (prev : Option Text) (l : List (Nat × Nat × X))
    (d : Dataset Nat Nat X Ex) (i : Nat) (a : AnyAlg Ex) (r : Result Nat Nat X Ex) (out : WebOut X Ex) : Prop where
  /-- the algorithm succeeded -/
  run : a.run d env.fuel (env.clock (2 * i)) = .ok r
  /-- all fields are there, except the accuracy -/
  keys : ∀ f, (∃ v, out.fields.get? f = some v) ↔ f ≠ .accuracy
  values : ∀ f v, out.fields.get? f = some v → Shows env.ltVal r none f v
  /-- the graph shows the scores -/
  graph : ∃ p, Reports l r p ∧ NonNeg l p ∧ readDoc out.graph = some (webPicture env l p)
  /-- iterative algorithms have an animation: five frames per second, one per partial result -/
  animation : match a with
    | .voting => out.animation = none
    | .iter c => ∃ rs ps doc, c.runIter d env.fuel (env.clock (2 * i + 1)) = .ok rs ∧
        List.Forall₂ (Reports l) rs ps ∧ (∀ p ∈ ps, NonNeg l p) ∧ out.animation = some doc ∧
        readAnimation doc = some (5, ps.map (webPicture env l))
  /-- the differences are there if asked for -/
  diff : (prev = none → out.diff = none) ∧
    ∀ t j trust belief time iterations, prev = some t → env.parseJson t = some j →
      Earlier j trust belief time iterations →
      ∃ D, out.diff = some D ∧ Compared env r trust belief time iterations D

/-- The names of the algorithm classes. -/
def algorithmClass : AlgLabel → String
  | .averageLog => "AverageLog"
  | .investment => "Investment"
  | .pooledInvestment => "PooledInvestment"
  | .sums => "Sums"
  | .usums => "UnboundedSums"
  | .truthfinder => "TruthFinder"
  | .crh => "CRH"
  | .voting => "MajorityVoting"

/-- Messages about ignored parameters of one algorithm. -/
def Messages {R : Rounding} (ps : Dict Text (PVal (FP R))) (c : AlgLabel) (ms : List Text) : Prop :=
  ∃ names : List Text, names.Pairwise (· < ·) ∧ (∀ k, k ∈ names ↔ k ∈ ps.keys ∧ ¬ Accepts c k) ∧
    ms = if names = [] then []
      else ["Ignored parameters for '".toList ++ (algorithmClass c).toList ++ "': ".toList ++
        [',', ' '].intercalate names]

/-- The answer to a request with proper inputs: the error of the first algorithm that
fails, or all outputs (the last one for a label that is given twice) and messages. -/
inductive Answer (env : Env X .exact) (prev : Option Text) (ps : Dict Text (PVal Ex))
    (l : List (Nat × Nat × X)) (d : Dataset Nat Nat X Ex) (labels : List Text) : Response X Ex → Prop
  | error (i s : Nat) (label : Text) (h : labels[i]? = some label) (hs : Fails env prev ps d i label s)
      (first : ∀ j < i, ∀ label' s', labels[j]? = some label' → ¬ Fails env prev ps d j label' s') :
      Answer env prev ps l d labels (.error s)
  | ok (data : Dict Text (WebOut X Ex)) (mss : List (List Text))
      (none_fails : ∀ j label s, labels[j]? = some label → ¬ Fails env prev ps d j label s)
      (nodup : data.keys.Nodup)
      (keys : ∀ label, label ∈ data.keys ↔ label ∈ labels)
      (outputs : ∀ label out, data.get? label = some out → ∃ i c a r, labels[i]? = some label ∧
        (∀ j, i < j → labels[j]? ≠ some label) ∧ label = (labelName c).toList ∧ Constructed ps c a ∧
        Presented env prev l d i a r out)
      (messages : List.Forall₂ (fun label ms => ∃ c, label = (labelName c).toList ∧ Messages ps c ms) labels mss) :
      Answer env prev ps l d labels (.ok data mss.flatten)

end
end TD.Spec
