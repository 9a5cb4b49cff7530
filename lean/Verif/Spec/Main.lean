import Verif.Model.Main
import Verif.Spec.Argparse
import Verif.Spec.Cli
/-!
# What a command line stands for

Options that are given more than once count as given the last time.
-/

namespace TD.Spec

/-! ### Options as documented -/

/-- Options of `run`, with the number of values. -/
def runOptions : List (String × RunOpt × Nargs) :=
  [("-h", .help, .zero), ("--help", .help, .zero), ("-a", .algorithm, .many), ("--algorithm", .algorithm, .many),
   ("-p", .params, .many), ("--params", .params, .many), ("-f", .dataset, .one), ("--dataset", .dataset, .one),
   ("-s", .supervised, .zero), ("--supervised", .supervised, .zero), ("--sources", .sources, .many),
   ("--variables", .vars, .many), ("-o", .output, .many), ("--output", .output, .many)]

/-- Options of `synth`. -/
def synthOptions : List (String × SynthOpt × Nargs) :=
  [("-h", .help, .zero), ("--help", .help, .zero), ("--trust", .trust, .many), ("--num-vars", .numVars, .one),
   ("--claim-prob", .claimProb, .one), ("--domain-size", .domainSize, .one)]

/-- Options of `graph`. -/
def graphOptions : List (String × GraphOpt × Nargs) :=
  [("-h", .help, .zero), ("--help", .help, .zero), ("-f", .dataset, .one), ("--dataset", .dataset, .one),
   ("-o", .outfile, .one), ("--outfile", .outfile, .one), ("--width", .width, .one),
   ("--node-radius", .nodeRadius, .one), ("--spacing", .spacing, .one), ("--font-size", .fontSize, .one),
   ("--line-width", .lineWidth, .one), ("--node-border-width", .nodeBorderWidth, .one),
   ("--one-indexed", .oneIndexed, .zero)]

/-- The names of a table, with what they stand for and the number of values. -/
def Documents {κ : Type} (T : List (Opt κ)) (L : List (String × κ × Nargs)) : Prop :=
  ∀ n k a, (∃ o, Named T n o ∧ o.key = k ∧ o.nargs = a) ↔ ∃ s, s.toList = n ∧ (s, k, a) ∈ L

/-! ### Last occurrences -/

/-- `v` is what the option `k` was given the last time, if at all. -/
inductive LastGiven {κ : Type} (k : κ) (acts : List (κ × List Text)) : Option (List Text) → Prop
  | never (h : ∀ vs, (k, vs) ∉ acts) : LastGiven k acts none
  | last (pre post : List (κ × List Text)) (vs : List Text) (h : acts = pre ++ (k, vs) :: post)
      (no : ∀ ws, (k, ws) ∉ post) : LastGiven k acts (some vs)

/-- The same for an option with one value. -/
def LastOne {κ : Type} (k : κ) (acts : List (κ × List Text)) (v : Option Text) : Prop :=
  LastGiven k acts (v.map fun t => [t])

section
variable {X : Type} [DecidableEq X] {R : Rounding}

/-! ### `run` -/

/-- The file can be read (`-` is the standard input), and this is what it contains. -/
def Contains (disk : Disk) (p t : Text) : Prop :=
  (p = ['-'] ∧ t = disk.stdin) ∨ (p ≠ ['-'] ∧ disk.readable p = true ∧ disk.files p = some t)

/-- `run` accepts this value for the option. -/
def RunValue (env : CliEnv X R) (disk : Disk) : RunOpt → Text → Prop
  | .algorithm, t => ∃ c, t = (labelName c).toList
  | .params, t => ∃ name value x, Assignment t name value ∧ Means env.digit env.parseFloat name value x
  | .dataset, t => ∃ s, Contains disk t s
  | .sources, t => ∃ n, env.parseInt t = some n
  | .vars, t => ∃ n, env.parseInt t = some n
  | .output, t => ∃ f, t = (fieldName f).toList
  | .help, _ => True
  | .supervised, _ => True

/-- These options and values make a command `run` with the option values `a`. -/
structure RunMeans (env : CliEnv X R) (disk : Disk) (acts : List (RunOpt × List Text)) (a : RunArgs) : Prop where
  noHelp : ∀ vs, (RunOpt.help, vs) ∉ acts
  proper : ∀ k vs, (k, vs) ∈ acts → ∀ v ∈ vs, RunValue env disk k v
  algorithms : LastGiven .algorithm acts (some a.algorithms)
  params : LastGiven .params acts a.params
  dataset : ∃ p, LastOne .dataset acts (some p) ∧ Contains disk p a.dataset
  supervised : a.supervised = true ↔ ∃ vs, (RunOpt.supervised, vs) ∈ acts
  sources : LastGiven .sources acts a.sources
  vars : LastGiven .vars acts a.vars
  output : LastGiven .output acts a.output

/-! ### `synth` -/

/-- `synth` accepts this value for the option. -/
def SynthValue (env : CliEnv X R) : SynthOpt → Text → Prop
  | .trust, t => ∃ x, env.parseFloat t = some x
  | .claimProb, t => ∃ x, env.parseFloat t = some x
  | .numVars, t => ∃ n, env.parseInt t = some n
  | .domainSize, t => ∃ n, env.parseInt t = some n
  | .help, _ => True

/-- These options and values make a command `synth` with the option values `o`. -/
structure SynthGiven (env : CliEnv X R) (acts : List (SynthOpt × List Text)) (o : SynthOptions) : Prop where
  noHelp : ∀ vs, (SynthOpt.help, vs) ∉ acts
  proper : ∀ k vs, (k, vs) ∈ acts → ∀ v ∈ vs, SynthValue env k v
  trust : LastGiven .trust acts (some o.trust)
  numVars : LastOne .numVars acts o.numVars
  claimProb : LastOne .claimProb acts o.claimProb
  domainSize : LastOne .domainSize acts o.domainSize

/-! ### `graph` -/

/-- The file was named as output file (and `-`, the standard output, is not a file). -/
def Emptied (acts : List (GraphOpt × List Text)) (p : Text) : Prop := p ≠ ['-'] ∧ (GraphOpt.outfile, [p]) ∈ acts

/-- `graph` accepts the value for the option, after the options and values `pre`. -/
def GraphValue (env : CliEnv X R) (disk : Disk) (pre : List (GraphOpt × List Text)) : GraphOpt → Text → Prop
  | .help, _ => True
  | .oneIndexed, _ => True
  | .dataset, p => p = ['-'] ∨ (disk.readable p = true ∧ (Emptied pre p ∨ ∃ t, disk.files p = some t))
  | .outfile, p => p = ['-'] ∨ disk.writable p = true
  | _, t => ∃ n, env.parseInt t = some n

/-- Afterwards the files named as output files are empty, the others unchanged. -/
def FilesAfter (disk : Disk) (acts : List (GraphOpt × List Text)) (files : Text → Option Text) : Prop :=
  ∀ p, (Emptied acts p ∧ files p = some []) ∨ (¬ Emptied acts p ∧ files p = disk.files p)

/-- These options and values make a command `graph` with the option values `o` and the output
file `out`. -/
structure GraphGiven (env : CliEnv X R) (disk : Disk) (acts : List (GraphOpt × List Text)) (o : GraphOptions)
    (out : Text) : Prop where
  noHelp : ∀ vs, (GraphOpt.help, vs) ∉ acts
  proper : ∀ pre k vs post, acts = pre ++ (k, vs) :: post → ∀ v ∈ vs, GraphValue env disk pre k v
  dataset : ∃ p, LastOne .dataset acts (some p) ∧
    ((p = ['-'] ∧ o.dataset = disk.stdin) ∨ (Emptied acts p ∧ o.dataset = []) ∨
     (p ≠ ['-'] ∧ ¬ Emptied acts p ∧ disk.files p = some o.dataset))
  outfile : LastOne .outfile acts (some out)
  width : LastOne .width acts o.width
  nodeRadius : LastOne .nodeRadius acts o.nodeRadius
  spacing : LastOne .spacing acts o.spacing
  fontSize : LastOne .fontSize acts o.fontSize
  lineWidth : LastOne .lineWidth acts o.lineWidth
  nodeBorderWidth : LastOne .nodeBorderWidth acts o.nodeBorderWidth
  oneIndexed : o.oneIndexed = true ↔ ∃ vs, (GraphOpt.oneIndexed, vs) ∈ acts

end
end TD.Spec
