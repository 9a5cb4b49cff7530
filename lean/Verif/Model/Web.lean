import Verif.Model.Client
import Verif.Model.Matrix
import Verif.Model.Backends
import Mathlib.Order.RelClasses
/-!
# `truthdiscovery/client/web/server.py`

Flask (routing, decoding of the query, serialisation of the answer) is not modelled: a
request is its parameters, an answer is a status and the data given to `jsonify`.
-/

namespace TD

/-- A parsed JSON value (`json.loads`); numbers (also `NaN` and `Infinity`, which Python
accepts) are floats, `true` and `false` are numbers for Python's arithmetic.
Simplification: integers are floats. -/
inductive WJson (α : Type)
  | null
  | bool (b : Bool)
  | num (x : α)
  | str (t : Text)
  | arr (l : List (WJson α))
  | obj (fields : List (Text × WJson α))

/-- The parameters of a request (server.py:133-134, 141, 192). -/
structure Request where
  algorithm : List Text := []
  csv : Option Text := none
  parameters : Option Text := none
  previousResults : Option Text := none

/-- The attributes of a `Result` made of JSON values (server.py:84-90). -/
structure RawResult (α : Type) where
  trust : WJson α
  belief : WJson α
  time : WJson α
  iterations : WJson α

/-- The entry "diff" of the output (server.py:205-210). -/
structure RawDiff (α : Type) where
  trust : Dict Text α
  belief : Dict Text (Dict Text α)
  time : α
  iterations : Option α

/-- The output for one algorithm: the fields of `get_output_obj`, the graph, the
animation (iterative algorithms only), the differences (if asked for). -/
structure WebOut (X α : Type) where
  fields : Dict Field (OutVal Nat Nat X α)
  graph : Json
  animation : Option Json
  diff : Option (RawDiff α)

/-- An answer: `{"ok": false, "error": ..}` with a status (the text of the error is not
modelled), or `{"ok": true, "data": .., "messages": ..}`. -/
inductive Response (X α : Type)
  | error (status : Nat)
  | ok (data : Dict Text (WebOut X α)) (messages : List Text)

/-- `WebClient.get_param_dict` (server.py:59-70). -/
def getParamDict {α : Type} [Arith α] (digit : Char → Option Nat) (parseFloat : Text → Option α)
    (params : Option Text) : Except PyErr (Dict Text (PVal α)) :=
  match params with
  | none => .ok []
  | some s => (split '\n' s).foldlM (fun (acc : Dict Text (PVal α)) line => do
      let p ← algorithmParameter digit parseFloat line
      return acc.set p.1 p.2) []

/-- `obj[name]` for a parsed JSON value and a string. -/
def WJson.item {α : Type} (j : WJson α) (name : String) : Except PyErr (WJson α) :=
  match j with
  | .obj fs => Dict.get fs name.toList
  | _ => .error .typeError

/-- `Result(trust=obj["trust"], ..)` (server.py:83-92): `KeyError` becomes `ValueError`. -/
def resultsOfObj {α : Type} (obj : WJson α) : Except PyErr (RawResult α) :=
  match (do return { trust := ← obj.item "trust", belief := ← obj.item "belief"
                     time := ← obj.item "time", iterations := ← obj.item "iterations" } :
      Except PyErr (RawResult α)) with
  | .error .keyError => .error .valueError
  | r => r

/-- `WebClient.get_results_object` (server.py:72-92); `parseJson` is `json.loads`, `none` is
`JSONDecodeError`. -/
def getResultsObject {α : Type} (parseJson : Text → Option (WJson α)) (s : Text) :
    Except PyErr (RawResult α) :=
  match parseJson s with
  | none => .error .valueError
  | some obj => resultsOfObj obj

/-- `d.keys()` and `d[k]` need a dictionary. -/
def WJson.dict {α : Type} : WJson α → Except PyErr (Dict Text (WJson α))
  | .obj fs => .ok fs
  | _ => .error .attributeError

/-- Operand of a subtraction. -/
def WJson.operand {α : Type} [Arith α] : WJson α → Except PyErr α
  | .num x => .ok x
  | .bool b => .ok (if b then Arith.ofNat 1 else Arith.ofNat 0)
  | _ => .error .typeError

/-- `j is not None` -/
def WJson.isNull {α : Type} : WJson α → Bool
  | .null => true
  | _ => false

/-- `y - x` for parsed JSON values. -/
def WJson.minus {α : Type} [Arith α] (y x : WJson α) : Except PyErr α := do
  return (← y.operand) -. (← x.operand)

/-- `for k in common: diffs[k] = d2[k] - d1[k]` (diff.py:13-17, 24-27) on parsed JSON. -/
def rawDiffDict {α : Type} [Arith α] (ord : List Text → List Text) (d1 d2 : Dict Text (WJson α)) :
    Except PyErr (Dict Text α) :=
  (common ord d1.keys d2.keys).foldlM (fun (acc : Dict Text α) k => do
    let x2 ← d2.get k
    let x1 ← d1.get k
    return acc.set k (← x2.minus x1)) []

/-- `if ... is not None` and the difference of the iterations (diff.py:31-33). -/
def rawDiffIterations {α : Type} [Arith α] (i1 i2 : WJson α) : Except PyErr (Option α) :=
  if i1.isNull || i2.isNull then .ok none
  else match i2.minus i1 with
    | .ok x => .ok (some x)
    | .error e => .error e

/-- The loop over the common variables (diff.py:20-29). -/
def rawDiffBelief {α : Type} [Arith α] (ord : List Text → List Text) (b1 b2 : Dict Text (WJson α)) :
    Except PyErr (Dict Text (Dict Text α)) :=
  (common ord b1.keys b2.keys).foldlM (fun (acc : Dict Text (Dict Text α)) v => do
    let v1 ← (← b1.get v).dict
    let v2 ← (← b2.get v).dict
    let diffs ← rawDiffDict ord v1 v2
    return if diffs.isEmpty then acc else acc.set v diffs) []

/-- `ResultDiff.__init__` (diff.py:7-33) on parsed JSON; `ord` is the iteration order of
the sets of common keys. -/
def rawDiff {α : Type} [Arith α] (ord : List Text → List Text) (r1 r2 : RawResult α) :
    Except PyErr (RawDiff α) := do
  let time ← r2.time.minus r1.time
  let t1 ← r1.trust.dict
  let t2 ← r2.trust.dict
  let trust ← rawDiffDict ord t1 t2
  let b1 ← r1.belief.dict
  let b2 ← r2.belief.dict
  let belief ← rawDiffBelief ord b1 b2
  let iterations ← rawDiffIterations r1.iterations r2.iterations
  return { trust := trust, belief := belief, time := time, iterations := iterations }

section
variable {X : Type} [DecidableEq X] {R : Rounding}

/-- What the environment of the server provides: `float`, decimal digits, `json.loads`,
`str` of ints, values and JSON keys, order of values, iteration order of sets, clocks (one
for each algorithm run of a request) and a bound for the model's loops. -/
structure Env (X : Type) (R : Rounding) where
  digit : Char → Option Nat
  parseFloat : Text → Option (FP R)
  parseValue : Text → Parsed X
  parseJson : Text → Option (WJson (FP R))
  strNat : Nat → Text
  strVal : X → Text
  ltVal : X → X → Bool
  ord : List Text → List Text
  clock : Nat → Nat → FP R
  fuel : Nat

/-- A dictionary after `json.loads(json.dumps(d))`: keys are strings. -/
def jsonKeys {κ α : Type} (str : κ → Text) (f : α → WJson (FP R)) (d : Dict κ α) : Dict Text (WJson (FP R)) :=
  Dict.ofPairs (d.map fun p => (str p.1, f p.2))

/-- `self.get_results_object(json.dumps(output))` (server.py:203), for the attributes used:
`json.loads` gives back what `json.dumps` wrote. -/
noncomputable def currentResults (env : Env X R) (r : Result Nat Nat X (FP R)) : RawResult (FP R) where
  trust := .obj (jsonKeys env.strNat .num r.trust)
  belief := .obj (jsonKeys env.strNat (fun d => .obj (jsonKeys env.strVal .num d)) r.belief)
  time := .num r.time
  iterations := match r.iterations with
    | none => .null
    | some n => .num (Arith.ofNat n)

/-- `WebClient.get_graph_renderer` (server.py:94-103). -/
noncomputable def webRenderer (env : Env X R) (colours : Scheme Nat Nat X) : Renderer Nat Nat X Text :=
  matrixRenderer
    { width := 800
      nodeRadius := 40
      fontSize := 20
      colours := colours
      srcLabel := fun _ => []
      varLabel := fun _ => []
      claimLabel := fun _ _ => []
      lt := fun a b => decide (a < b)
      str := id } false env.strNat env.strVal

/-- The animation (server.py:177-189), for iterative algorithms only; the iterator is reset
by `run_iter`, so the state `run` left in it does not matter. -/
noncomputable def webAnimation (env : Env X R) (i : Nat) (a : AnyAlg (FP R)) (d : Dataset Nat Nat X (FP R)) :
    Except PyErr (Option Json) :=
  match a with
  | .voting => .ok none
  | .iter c => do
    let r := webRenderer env defaultScheme
    let animator ← mkAnimator .json r (some (r, .json))
    return some (← jsonAnimation animator {} c d env.fuel (env.clock (2 * i + 1)) false)

/-- "diff" (server.py:191-210).  Outer exceptions are not caught, the inner status is an
answer. -/
noncomputable def webDiff (env : Env X R) (previous : Option Text) (r : Result Nat Nat X (FP R)) :
    Except PyErr (Except Nat (Option (RawDiff (FP R)))) :=
  match previous with
  | none => .ok (.ok none)
  | some t =>
    match getResultsObject env.parseJson t with
    | .error .valueError => .ok (.error 400)
    | .error e => .error e
    | .ok obj => do
      return .ok (some (← rawDiff env.ord obj (currentResults env r)))

/-- Names of the classes. -/
def AlgLabel.className : AlgLabel → Text
  | .averageLog => "AverageLog".toList
  | .investment => "Investment".toList
  | .pooledInvestment => "PooledInvestment".toList
  | .sums => "Sums".toList
  | .usums => "UnboundedSums".toList
  | .truthfinder => "TruthFinder".toList
  | .crh => "CRH".toList
  | .voting => "MajorityVoting".toList

/-- `", ".join(parts)` -/
def joinComma : List Text → Text
  | [] => []
  | [p] => p
  | p :: q :: ps => p ++ ", ".toList ++ joinComma (q :: ps)

/-- `BaseClient.get_ignored_parameters_message` (client/base.py:149-159). -/
def ignoredMessage (c : AlgLabel) (names : List Text) : Text :=
  "Ignored parameters for '".toList ++ c.className ++ "': ".toList ++
    joinComma (pySorted (fun a b => decide (a < b)) names)

/-- `algorithm_cls`, `get_algorithm_params`, `get_algorithm_object` (server.py:152-160). -/
noncomputable def prepare (env : Env X R) (params : Dict Text (PVal (FP R))) (label : Text) :
    Except PyErr (AlgLabel × AnyAlg (FP R) × List Text) := do
  let c ← algorithmCls label
  let p := getAlgorithmParams env.ord c params
  let a ← makeAlg c p.1
  return (c, a, p.2)

/-- The body of the loop after the run (server.py:166-212). -/
noncomputable def present (env : Env X R) (req : Request) (d : Dataset Nat Nat X (FP R)) (i : Nat)
    (a : AnyAlg (FP R)) (r : Result Nat Nat X (FP R)) : Except PyErr (Except Nat (WebOut X (FP R))) := do
  let fields ← getOutputObj env.ltVal r none none
  let frame ← ((webRenderer env (gradientScheme r)).render {} d none).2
  let animation ← webAnimation env i a d
  match ← webDiff env req.previousResults r with
  | .error s => return .error s
  | .ok diff => return .ok { fields, graph := jsonDoc frame, animation, diff }

/-- The body of the loop over the algorithms (server.py:150-212): an uncaught exception,
an answer (its status), or the output and the message. -/
noncomputable def oneAlgorithm (env : Env X R) (req : Request) (params : Dict Text (PVal (FP R)))
    (d : Dataset Nat Nat X (FP R)) (i : Nat) (label : Text) :
    Except PyErr (Except Nat (WebOut X (FP R) × List Text)) :=
  match prepare env params label with
  | .error .valueError => .ok (.error 400)
  | .error e => .error e
  | .ok (c, a, ignored) =>
    let messages := if ignored.isEmpty then [] else [ignoredMessage c ignored]
    match a.run d env.fuel (env.clock (2 * i)) with
    | .error .convergence => .ok (.error 500)
    | .error .emptyDataset => .ok (.error 400)
    | .error e => .error e
    | .ok r =>
      match present env req d i a r with
      | .error e => .error e
      | .ok (.error s) => .ok (.error s)
      | .ok (.ok out) => .ok (.ok (out, messages))

/-- The loop over the algorithms (server.py:148-214). -/
noncomputable def webLoop (env : Env X R) (req : Request) (params : Dict Text (PVal (FP R)))
    (d : Dataset Nat Nat X (FP R)) : Nat → List Text → Dict Text (WebOut X (FP R)) → List Text →
    Except PyErr (Response X (FP R))
  | _, [], data, messages => .ok (.ok data messages)
  | i, label :: rest, data, messages =>
    match oneAlgorithm env req params d i label with
    | .error e => .error e
    | .ok (.error s) => .ok (.error s)
    | .ok (.ok (out, ms)) => webLoop env req params d (i + 1) rest (data.set label out) (messages ++ ms)

/-- The two inputs (server.py:140-146). -/
noncomputable def webInputs (env : Env X R) (req : Request) (csv : Text) :
    Except PyErr (Dict Text (PVal (FP R)) × MatrixDataset X (FP R)) := do
  let params ← getParamDict env.digit env.parseFloat req.parameters
  let d ← MatrixDataset.fromCsv env.parseValue (csv.filter fun c => c ≠ '_')
  return (params, d)

/-- `WebClient.run` (server.py:117-214). -/
noncomputable def webRun (env : Env X R) (req : Request) : Except PyErr (Response X (FP R)) :=
  match req.algorithm, req.csv with
  | [], _ => .ok (.error 400)
  | _, none => .ok (.error 400)
  | _, some [] => .ok (.error 400)
  | labels, some csv =>
    match webInputs env req csv with
    | .error .valueError => .ok (.error 400)
    | .error e => .error e
    | .ok (params, d) => webLoop env req params d.data 0 labels [] []

end
end TD
