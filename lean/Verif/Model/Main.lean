import Verif.Model.Cli
import Verif.Model.Argparse
/-!
# `CommandLineClient.run` and `main`

The words of the command line, up to what is printed and written to files.
-/

namespace TD

/-! ### Tables of options -/

/-- Options of `run` (cli.py:57-131). -/
inductive RunOpt
  | help | algorithm | params | dataset | supervised | sources | vars | output
deriving DecidableEq, Repr

/-- Options of `synth` (cli.py:134-173). -/
inductive SynthOpt
  | help | trust | numVars | claimProb | domainSize
deriving DecidableEq, Repr

/-- Options of `graph` (cli.py:175-229). -/
inductive GraphOpt
  | help | dataset | outfile | width | nodeRadius | spacing | fontSize | lineWidth | nodeBorderWidth | oneIndexed
deriving DecidableEq, Repr

/-- `-h`, `--help`, which argparse adds to every parser. -/
def helpOpt {κ : Type} (key : κ) : Opt κ := ⟨key, ["-h".toList, "--help".toList], .zero⟩

/-- cli.py:57-131 -/
def runTable : List (Opt RunOpt) :=
  [helpOpt .help,
   ⟨.algorithm, ["-a".toList, "--algorithm".toList], .many⟩,
   ⟨.params, ["-p".toList, "--params".toList], .many⟩,
   ⟨.dataset, ["-f".toList, "--dataset".toList], .one⟩,
   ⟨.supervised, ["-s".toList, "--supervised".toList], .zero⟩,
   ⟨.sources, ["--sources".toList], .many⟩,
   ⟨.vars, ["--variables".toList], .many⟩,
   ⟨.output, ["-o".toList, "--output".toList], .many⟩]

/-- cli.py:134-173 -/
def synthTable : List (Opt SynthOpt) :=
  [helpOpt .help,
   ⟨.trust, ["--trust".toList], .many⟩,
   ⟨.numVars, ["--num-vars".toList], .one⟩,
   ⟨.claimProb, ["--claim-prob".toList], .one⟩,
   ⟨.domainSize, ["--domain-size".toList], .one⟩]

/-- cli.py:175-229 -/
def graphTable : List (Opt GraphOpt) :=
  [helpOpt .help,
   ⟨.dataset, ["-f".toList, "--dataset".toList], .one⟩,
   ⟨.outfile, ["-o".toList, "--outfile".toList], .one⟩,
   ⟨.width, ["--width".toList], .one⟩,
   ⟨.nodeRadius, ["--node-radius".toList], .one⟩,
   ⟨.spacing, ["--spacing".toList], .one⟩,
   ⟨.fontSize, ["--font-size".toList], .one⟩,
   ⟨.lineWidth, ["--line-width".toList], .one⟩,
   ⟨.nodeBorderWidth, ["--node-border-width".toList], .one⟩,
   ⟨.oneIndexed, ["--one-indexed".toList], .zero⟩]

/-- The main parser and that of `httpd` have no options of their own (cli.py:45-49, 236-245). -/
def helpTable : List (Opt Unit) := [helpOpt ()]

/-! ### Files -/

/-- The files, which of them may be read and written, and the standard input.  Simplifications:
different names are different files, and all files contain text. -/
structure Disk where
  files : Text → Option Text
  readable : Text → Bool
  writable : Text → Bool
  stdin : Text

/-- `argparse.FileType("r")(name)` (argparse.py:1288-1306): can the file be opened? -/
def Disk.opens (disk : Disk) (files : Text → Option Text) (name : Text) : Bool :=
  decide (name = ['-']) || (disk.readable name && (files name).isSome)

/-- What is read from a file opened by `FileType("r")`, at the end of parsing. -/
def Disk.contents (disk : Disk) (files : Text → Option Text) (name : Text) : Text :=
  if name = ['-'] then disk.stdin else (files name).getD []

/-- `argparse.FileType("wb")(name)`: the file is created, or emptied if it exists; `none` if that
fails. -/
def Disk.create (disk : Disk) (files : Text → Option Text) (name : Text) : Option (Text → Option Text) :=
  if name = ['-'] then some files
  else if disk.writable name then some fun p => if p = name then some [] else files p
  else none

/-! ### Outcome -/

/-- How the program ends: the help text is printed (status 0), argparse reports an error
(status 2), an exception escapes, `run` prints results, `synth` a CSV text, `graph` writes an
image to its output file, `httpd` starts the server. -/
inductive MainEnd (X : Type) (R : Rounding)
  | help
  | usage
  | raised (e : PyErr)
  | results (out : Dict Text (Dict Field (OutVal Nat Nat X (FP R))))
  | csv (t : Text)
  | image (file : Text) (f : Frame)
  | server

/-- What the program does: files afterwards (apart from the image), warnings on stderr, end. -/
structure MainOutcome (X : Type) (R : Rounding) where
  files : Text → Option Text
  warnings : List Text
  result : MainEnd X R

/-- Parsing stops early. -/
inductive Stop
  | help | usage

/-- The end that belongs to it. -/
def Stop.result {X : Type} {R : Rounding} : Stop → MainEnd X R
  | .help => .help
  | .usage => .usage

/-- The actions in turn: the last state, and why parsing stopped early, if it did. -/
def runActions {σ κ : Type} (step : σ → κ → Except Stop σ) : σ → List κ → σ × Option Stop
  | a, [] => (a, none)
  | a, x :: xs =>
    match step a x with
    | .error s => (a, some s)
    | .ok a' => runActions step a' xs

/-- Is the conversion of all values possible? -/
def converts {β : Type} (conv : Text → Except PyErr β) (vs : List Text) : Bool :=
  vs.all fun v => match conv v with
    | .ok _ => true
    | .error _ => false

section
variable {X : Type} [DecidableEq X] {R : Rounding}

/-! ### `run` -/

/-- The namespace of `run` while it is filled.  The values are kept as texts, after it has been
checked that they can be converted (`parseRun` converts them again). -/
structure RunSpace where
  algorithms : Option (List Text) := none
  params : Option (List Text) := none
  dataset : Option Text := none
  supervised : Bool := false
  sources : Option (List Text) := none
  vars : Option (List Text) := none
  output : Option (List Text) := none

/-- `take_action` (argparse.py:1965-1983) for the options of `run`: an option that is given
again replaces the earlier value. -/
noncomputable def runStep (env : CliEnv X R) (disk : Disk) (a : RunSpace) : RunOpt × List Text → Except Stop RunSpace
  | (.help, _) => .error .help
  | (.supervised, _) => .ok { a with supervised := true }
  | (.algorithm, vs) => if converts algorithmCls vs then .ok { a with algorithms := some vs } else .error .usage
  | (.params, vs) =>
    if converts (algorithmParameter env.digit env.parseFloat) vs then .ok { a with params := some vs }
    else .error .usage
  | (.sources, vs) => if converts (readInt' env) vs then .ok { a with sources := some vs } else .error .usage
  | (.vars, vs) => if converts (readInt' env) vs then .ok { a with vars := some vs } else .error .usage
  | (.output, vs) => if converts readField vs then .ok { a with output := some vs } else .error .usage
  | (.dataset, [p]) => if disk.opens disk.files p then .ok { a with dataset := some p } else .error .usage
  | (.dataset, _) => .error .usage

/-- The outcome of `run_algorithm` as the end of the program. -/
def runEnd : CliEnd (Dict Text (Dict Field (OutVal Nat Nat X (FP R)))) → MainEnd X R
  | .usage => .usage
  | .raised e => .raised e
  | .done out => .results out

/-- `truthdiscovery run ...` (cli.py:248-253, 263-298); `extra`: there was an unknown option
before the command, which is reported after the options of the command have been parsed. -/
noncomputable def runCommand (env : CliEnv X R) (disk : Disk) (extra : Bool) (args : List Text) : MainOutcome X R :=
  let p := parseLine env.digit runTable args
  match runActions (runStep env disk) {} p.1 with
  | (_, some s) => ⟨disk.files, [], s.result⟩
  | (a, none) =>
    match p.2, a.algorithms, a.dataset with
    | some [], some algorithms, some dataset =>
      if extra then ⟨disk.files, [], .usage⟩
      else
        let o := cliRun env ⟨algorithms, a.params, disk.contents disk.files dataset, a.supervised, a.sources,
          a.vars, a.output⟩
        ⟨disk.files, o.warnings, runEnd o.result⟩
    | _, _, _ => ⟨disk.files, [], .usage⟩

/-! ### `synth` -/

/-- The namespace of `synth` while it is filled. -/
structure SynthSpace where
  trust : Option (List Text) := none
  numVars : Option Text := none
  claimProb : Option Text := none
  domainSize : Option Text := none

/-- `take_action` for the options of `synth`. -/
noncomputable def synthStep (env : CliEnv X R) (a : SynthSpace) : SynthOpt × List Text → Except Stop SynthSpace
  | (.help, _) => .error .help
  | (.trust, vs) => if converts (readFloat env) vs then .ok { a with trust := some vs } else .error .usage
  | (.numVars, [v]) => if converts (readInt' env) [v] then .ok { a with numVars := some v } else .error .usage
  | (.claimProb, [v]) => if converts (readFloat env) [v] then .ok { a with claimProb := some v } else .error .usage
  | (.domainSize, [v]) => if converts (readInt' env) [v] then .ok { a with domainSize := some v } else .error .usage
  | _ => .error .usage

/-- The outcome of `generate_synthetic` as the end of the program. -/
def synthEnd : CliEnd Text → MainEnd X R
  | .usage => .usage
  | .raised e => .raised e
  | .done t => .csv t

/-- `truthdiscovery synth ...` (cli.py:254-255, 300-311). -/
noncomputable def synthCommand (env : CliEnv X R) (g : Rng (FP R)) (k : Nat) (str : Nat → Text) (disk : Disk)
    (extra : Bool) (args : List Text) : MainOutcome X R :=
  let p := parseLine env.digit synthTable args
  match runActions (synthStep env) {} p.1 with
  | (_, some s) => ⟨disk.files, [], s.result⟩
  | (a, none) =>
    match p.2, a.trust with
    | some [], some trust =>
      if extra then ⟨disk.files, [], .usage⟩
      else ⟨disk.files, [], synthEnd (cliSynth env g k str ⟨trust, a.numVars, a.claimProb, a.domainSize⟩)⟩
    | _, _ => ⟨disk.files, [], .usage⟩

/-! ### `graph` -/

/-- The namespace of `graph` while it is filled, and the files. -/
structure GraphSpace where
  files : Text → Option Text
  dataset : Option Text := none
  outfile : Option Text := none
  width : Option Text := none
  nodeRadius : Option Text := none
  spacing : Option Text := none
  fontSize : Option Text := none
  lineWidth : Option Text := none
  nodeBorderWidth : Option Text := none
  oneIndexed : Bool := false

/-- `take_action` for the options of `graph`: the output file is created or emptied at once.
The files are returned even if parsing stops. -/
noncomputable def graphStep (env : CliEnv X R) (disk : Disk) (a : GraphSpace) :
    GraphOpt × List Text → Except Stop GraphSpace
  | (.help, _) => .error .help
  | (.oneIndexed, _) => .ok { a with oneIndexed := true }
  | (.dataset, [p]) => if disk.opens a.files p then .ok { a with dataset := some p } else .error .usage
  | (.outfile, [p]) =>
    match disk.create a.files p with
    | some files => .ok { a with files := files, outfile := some p }
    | none => .error .usage
  | (.width, [v]) => if converts (readInt' env) [v] then .ok { a with width := some v } else .error .usage
  | (.nodeRadius, [v]) => if converts (readInt' env) [v] then .ok { a with nodeRadius := some v } else .error .usage
  | (.spacing, [v]) => if converts (readInt' env) [v] then .ok { a with spacing := some v } else .error .usage
  | (.fontSize, [v]) => if converts (readInt' env) [v] then .ok { a with fontSize := some v } else .error .usage
  | (.lineWidth, [v]) => if converts (readInt' env) [v] then .ok { a with lineWidth := some v } else .error .usage
  | (.nodeBorderWidth, [v]) =>
    if converts (readInt' env) [v] then .ok { a with nodeBorderWidth := some v } else .error .usage
  | _ => .error .usage

/-- The outcome of `generate_graph` as the end of the program. -/
def graphEnd (file : Text) : CliEnd Frame → MainEnd X R
  | .usage => .usage
  | .raised e => .raised e
  | .done f => .image file f

/-- `truthdiscovery graph ...` (cli.py:256-257, 330-336). -/
noncomputable def graphCommand (env : CliEnv X R) (disk : Disk) (extra : Bool) (args : List Text) : MainOutcome X R :=
  let p := parseLine env.digit graphTable args
  match runActions (graphStep env disk) { files := disk.files } p.1 with
  | (a, some s) => ⟨a.files, [], s.result⟩
  | (a, none) =>
    match p.2, a.dataset, a.outfile with
    | some [], some dataset, some outfile =>
      if extra then ⟨a.files, [], .usage⟩
      else ⟨a.files, [], graphEnd outfile (cliGraph env ⟨disk.contents a.files dataset, a.width, a.nodeRadius,
        a.spacing, a.fontSize, a.lineWidth, a.nodeBorderWidth, a.oneIndexed⟩)⟩
    | _, _, _ => ⟨a.files, [], .usage⟩

/-! ### `httpd`, and the choice of the command -/

/-- `truthdiscovery httpd ...` (cli.py:236-245, 258-259). -/
def httpdCommand (digit : Char → Option Nat) (disk : Disk) (extra : Bool) (args : List Text) : MainOutcome X R :=
  let p := parseLine digit helpTable args
  match p.1 with
  | _ :: _ => ⟨disk.files, [], .help⟩
  | [] => ⟨disk.files, [], if p.2 = some [] ∧ extra = false then .server else .usage⟩

/-- What the main parser finds: the command and the remaining words. -/
inductive TopEnd
  | stop (s : Stop)
  | command (extra : Bool) (name : Text) (args : List Text)

/-- The main parser (cli.py:45-49, argparse.py:1918-2186): options before the command, of which
it knows only `-h`; the command is the first word that is not like an option, and takes all
words that follow.  Without a command the help text is printed (cli.py:260-261).  (The main
parser has one long option only, so that no word is ambiguous.) -/
def topLoop (digit : Char → Option Nat) : Bool → List Text → TopEnd
  | extra, [] => .stop (if extra then .usage else .help)
  | extra, w :: ws =>
    if w = ['-', '-'] then .stop .usage
    else match parseOptional digit helpTable w with
      | some (.arg t) => .command extra t ws
      | some (.unknown _) => topLoop digit true ws
      | some (.opt o name eq explicit) =>
        match consumeOptional helpTable [] o name eq explicit with
        | some _ => .stop .help
        | none => .stop .usage
      | _ => .stop .usage

/-- `CommandLineClient.run` (cli.py:248-261) with the arguments of the program (`main`,
cli.py:339-341). -/
noncomputable def cliMain (env : CliEnv X R) (g : Rng (FP R)) (k : Nat) (str : Nat → Text) (disk : Disk)
    (args : List Text) : MainOutcome X R :=
  match topLoop env.digit false args with
  | .stop s => ⟨disk.files, [], s.result⟩
  | .command extra name args =>
    if name = "run".toList then runCommand env disk extra args
    else if name = "synth".toList then synthCommand env g k str disk extra args
    else if name = "graph".toList then graphCommand env disk extra args
    else if name = "httpd".toList then httpdCommand env.digit disk extra args
    else ⟨disk.files, [], .usage⟩

end
end TD
