import Verif.Model.Web
import Verif.Model.Synthetic
/-!
# `truthdiscovery/client/cli.py`

Here a command is its option values, still as text; the splitting of the command line into
options by argparse is modelled in `Model/Argparse.lean` and `Model/Main.lean`.  YAML is not
modelled: what is printed is the data given to `yaml.dump`.
-/

namespace TD

/-- How a command ends: argparse reports an error on stderr and exits with status 2, an
exception escapes, or something is printed on stdout (or written to the output file). -/
inductive CliEnd (β : Type)
  | usage
  | raised (e : PyErr)
  | done (out : β)

/-- Lines written to stderr by the command itself, and its end. -/
structure Outcome (β : Type) where
  warnings : List Text
  result : CliEnd β

/-- Options of `run` (cli.py:57-131); `none` is an option that is not given. -/
structure RunArgs where
  algorithms : List Text
  params : Option (List Text) := none
  /-- contents of the file -/
  dataset : Text
  supervised : Bool := false
  sources : Option (List Text) := none
  vars : Option (List Text) := none
  output : Option (List Text) := none

/-- `OutputFields(text)` (client/base.py:25-36). -/
def readField (t : Text) : Except PyErr Field :=
  if t = "accuracy".toList then .ok .accuracy
  else if t = "belief".toList then .ok .belief
  else if t = "belief_stats".toList then .ok .beliefStats
  else if t = "iterations".toList then .ok .iterations
  else if t = "most_believed_values".toList then .ok .mostBelieved
  else if t = "time".toList then .ok .time
  else if t = "trust".toList then .ok .trust
  else if t = "trust_stats".toList then .ok .trustStats
  else .error .valueError

/-- What the environment provides: `float`, `int`, decimal digits, values in CSV files,
`str`, order of values, iteration order of sets, clock and random choices for each algorithm
run, and a bound for the model's loops. -/
structure CliEnv (X : Type) (R : Rounding) where
  digit : Char → Option Nat
  parseFloat : Text → Option (FP R)
  parseInt : Text → Option Int
  parseValue : Text → Parsed X
  strNat : Nat → Text
  strVal : X → Text
  ltVal : X → X → Bool
  ord : List Text → List Text
  clock : Nat → Nat → FP R
  pick : Nat → Nat → Nat → Nat
  fuel : Nat

/-- `type=int` -/
def readInt' {X : Type} {R : Rounding} (env : CliEnv X R) (t : Text) : Except PyErr Int :=
  match env.parseInt t with
  | some n => .ok n
  | none => .error .valueError

/-- `type=float` -/
def readFloat {X : Type} {R : Rounding} (env : CliEnv X R) (t : Text) : Except PyErr (FP R) :=
  match env.parseFloat t with
  | some x => .ok x
  | none => .error .valueError

/-- Conversion of an option that may be absent. -/
def optional {β γ : Type} (f : β → Except PyErr γ) : Option β → Except PyErr (Option γ)
  | none => .ok none
  | some b => (f b).map some

/-- The namespace for `run`. -/
structure RunParsed (R : Rounding) where
  algClasses : List AlgLabel
  algParams : Option (List (Text × PVal (FP R)))
  sources : Option (List Int)
  vars : Option (List Int)
  outputFields : List Field

section
variable {X : Type} [DecidableEq X] {R : Rounding}

/-- `parser.parse_args` for `run` with the converters `algorithm_cls`,
`algorithm_parameter`, `int`, `OutputFields` (cli.py:57-131); errors become usage errors
(`make_argparse_type`, cli.py:28-40). -/
noncomputable def parseRun (env : CliEnv X R) (a : RunArgs) : Except PyErr (RunParsed R) := do
  let algClasses ← a.algorithms.mapM algorithmCls
  let algParams ← optional (List.mapM (algorithmParameter env.digit env.parseFloat)) a.params
  let sources ← optional (List.mapM (readInt' env)) a.sources
  let vars ← optional (List.mapM (readInt' env)) a.vars
  let output ← optional (List.mapM readField) a.output
  return { algClasses, algParams, sources, vars
           outputFields := output.getD [.trust, .belief, .iterations, .time] }

/-- The loop over the classes (cli.py:266-272): warnings, and the algorithm objects. -/
noncomputable def cliAlgorithms (ord : List Text → List Text) (params : Dict Text (PVal (FP R))) :
    List AlgLabel → List Text × Except PyErr (List (AlgLabel × AnyAlg (FP R)))
  | [] => ([], .ok [])
  | c :: cs =>
    let p := getAlgorithmParams ord c params
    match makeAlg c p.1 with
    | .error e => ([], .error e)
    | .ok a =>
      let w := if p.2.isEmpty then [] else ["WARNING: ".toList ++ ignoredMessage c p.2]
      let rest := cliAlgorithms ord params cs
      (w ++ rest.1, rest.2.map fun l => (c, a) :: l)

/-- Rows and columns are numbered from 0: other numbers are not labels. -/
def asLabels (l : Option (List Int)) : Option (List Nat) := l.map (List.filterMap Int.toNat?)

/-- The loop over the algorithms (cli.py:286-297). -/
noncomputable def cliLoop (env : CliEnv X R) (p : RunParsed R) (d : Dataset Nat Nat X (FP R))
    (values : Option (Dict Nat X)) : Nat → List (AlgLabel × AnyAlg (FP R)) →
    Dict Text (Dict Field (OutVal Nat Nat X (FP R))) →
    Except PyErr (Dict Text (Dict Field (OutVal Nat Nat X (FP R))))
  | _, [], out => .ok out
  | i, (c, a) :: rest, out => do
    let r ← a.run d env.fuel (env.clock i)
    let r := r.filter (asLabels p.sources) (asLabels p.vars)
    let o ← getOutputObj env.ltVal r (some p.outputFields) (values.map fun v => (v, env.pick i))
    cliLoop env p d values (i + 1) rest (out.set c.name o)

/-- Loading the data (cli.py:274-284): `none` is a usage error. -/
noncomputable def cliData (env : CliEnv X R) (a : RunArgs) (p : RunParsed R) :
    Except PyErr (Option (Dataset Nat Nat X (FP R) × Option (Dict Nat X))) :=
  if a.supervised then do
    let s ← SupervisedMatrix.fromCsv env.parseValue a.dataset
    return some (s.data.data, some s.values)
  else if Field.accuracy ∈ p.outputFields then return none
  else do
    let d ← MatrixDataset.fromCsv env.parseValue a.dataset
    return some (d.data, none)

/-- `CommandLineClient.run_algorithm` (cli.py:263-298) after parsing. -/
noncomputable def cliRun (env : CliEnv X R) (a : RunArgs) :
    Outcome (Dict Text (Dict Field (OutVal Nat Nat X (FP R)))) :=
  match parseRun env a with
  | .error _ => ⟨[], .usage⟩
  | .ok p =>
    let algs := cliAlgorithms env.ord (Dict.ofPairs (p.algParams.getD [])) p.algClasses
    match algs.2 with
    | .error e => ⟨algs.1, .raised e⟩
    | .ok algObjs =>
      match cliData env a p with
      | .error e => ⟨algs.1, .raised e⟩
      | .ok none => ⟨algs.1, .usage⟩
      | .ok (some (d, values)) =>
        match cliLoop env p d values 0 algObjs [] with
        | .error e => ⟨algs.1, .raised e⟩
        | .ok out => ⟨algs.1, .done out⟩

/-! ### `synth` -/

/-- Options of `synth` (cli.py:134-173). -/
structure SynthOptions where
  trust : List Text
  numVars : Option Text := none
  claimProb : Option Text := none
  domainSize : Option Text := none

/-- `parser.parse_args` for `synth`, and `SyntheticData(**kwargs)` with its defaults for
absent options (cli.py:134-173, 300-308; synthetic_data.py:14-15). -/
noncomputable def parseSynth (env : CliEnv X R) (o : SynthOptions) : Except PyErr (SynthArgs (FP R)) := do
  let trust ← o.trust.mapM (readFloat env)
  let numVars ← optional (readInt' env) o.numVars
  let claimProb ← optional (readFloat env) o.claimProb
  let domainSize ← optional (readInt' env) o.domainSize
  return { trust := some trust, numVariables := numVars.getD 100
           claimProbability := claimProb.getD (Arith.lit 1 2), domainSize := domainSize.getD 4 }

/-- `CommandLineClient.generate_synthetic` (cli.py:300-311); `str` prints a value, `k` random
numbers were drawn before.  `print` appends a newline. -/
noncomputable def cliSynth (env : CliEnv X R) (g : Rng (FP R)) (k : Nat) (str : Nat → Text) (o : SynthOptions) :
    CliEnd Text :=
  match parseSynth env o with
  | .error _ => .usage
  | .ok a =>
    match synthNew g a k with
    | .error .valueError => .usage
    | .error e => .raised e
    | .ok (s, _) => .done (synthToCsv str s ++ ['\n'])

/-! ### `graph` -/

/-- Options of `graph` (cli.py:175-229). -/
structure GraphOptions where
  dataset : Text
  width : Option Text := none
  nodeRadius : Option Text := none
  spacing : Option Text := none
  fontSize : Option Text := none
  lineWidth : Option Text := none
  nodeBorderWidth : Option Text := none
  oneIndexed : Bool := false

/-- `get_graph_renderer` (cli.py:313-328) with the defaults of `GraphRenderer`
(draw.py:23-25) for absent options. -/
noncomputable def cliRenderer (env : CliEnv X R) (o : GraphOptions) : Except PyErr (Renderer Nat Nat X Text) := do
  let width ← optional (readInt' env) o.width
  let nodeRadius ← optional (readInt' env) o.nodeRadius
  let spacing ← optional (readInt' env) o.spacing
  let fontSize ← optional (readInt' env) o.fontSize
  let lineWidth ← optional (readInt' env) o.lineWidth
  let nodeBorderWidth ← optional (readInt' env) o.nodeBorderWidth
  return matrixRenderer
    { width := width.getD 800
      nodeRadius := nodeRadius.getD 50
      spacing := spacing.getD 20
      fontSize := fontSize.getD 15
      lineWidth := lineWidth.getD 3
      nodeBorderWidth := nodeBorderWidth.getD 3
      colours := defaultScheme
      srcLabel := fun _ => []
      varLabel := fun _ => []
      claimLabel := fun _ _ => []
      lt := fun a b => decide (a < b)
      str := id } (!o.oneIndexed) env.strNat env.strVal

/-- `generate_graph` (cli.py:330-336): the entities, width and height given to the PNG
backend. -/
noncomputable def cliGraph (env : CliEnv X R) (o : GraphOptions) : CliEnd Frame :=
  match cliRenderer env o with
  | .error _ => .usage
  | .ok r =>
    match (MatrixDataset.fromCsv env.parseValue o.dataset : Except PyErr (MatrixDataset X (FP R))) with
    | .error .valueError => .usage
    | .error e => .raised e
    | .ok d =>
      match (r.render {} d.data none).2 with
      | .error e => .raised e
      | .ok f => .done f

end
end TD
