import Verif.Props.Main
/-!
# C86: how the program ends after each command
-/

namespace TD
namespace Spec
variable {X : Type} {R : Rounding}

/-- The end of the program that belongs to the end of a command: a usage message, the exception that was raised, or its output,
presented by `show`. -/
inductive EndsAs {T : Type} (present : T → MainEnd X R) : CliEnd T → MainEnd X R → Prop
  | usage : EndsAs present .usage .usage
  | raised (e : PyErr) : EndsAs present (.raised e) (.raised e)
  | done (t : T) : EndsAs present (.done t) (present t)

end Spec
open Spec
section
variable {X : Type} [DecidableEq X] {R : Rounding}

/-- **C86.** The command `run` prints the results, unless it rejects its options or an exception is raised. -/
theorem C86_run_ends (env : CliEnv X R) (hnl : env.digit '\n' = none) (hdot : env.digit '.' = none) (g : Rng (FP R)) (k : Nat)
    (str : Nat → Text) (disk : Disk) (args : List Text) (acts : List (RunOpt × List Text)) (a : RunArgs)
    (h : Line env.digit runTable args acts) (ha : RunMeans env disk acts a) :
    EndsAs .results (cliRun env a).result (cliMain env g k str disk ("run".toList :: args)).result := by
  rw [C86_run env hnl hdot g k str disk args acts a h ha]
  cases (cliRun env a).result with
  | usage => exact .usage
  | raised e => exact .raised e
  | done t => exact .done t

/-- **C86.** The command `synth` prints the dataset, unless it rejects its options or an exception is raised. -/
theorem C86_synth_ends (env : CliEnv X R) (hdot : env.digit '.' = none) (g : Rng (FP R)) (k : Nat)
    (str : Nat → Text) (disk : Disk) (args : List Text) (acts : List (SynthOpt × List Text)) (o : SynthOptions)
    (h : Line env.digit synthTable args acts) (ho : SynthGiven env acts o) :
    EndsAs .csv (cliSynth env g k str o) (cliMain env g k str disk ("synth".toList :: args)).result := by
  rw [C86_synth env hdot g k str disk args acts o h ho]
  cases cliSynth env g k str o with
  | usage => exact .usage
  | raised e => exact .raised e
  | done t => exact .done t

/-- **C86.** The command `graph` writes the image to the output file, unless it rejects its options or an exception is raised. -/
theorem C86_graph_ends (env : CliEnv X R) (hdot : env.digit '.' = none) (g : Rng (FP R)) (k : Nat)
    (str : Nat → Text) (disk : Disk) (args : List Text) (acts : List (GraphOpt × List Text)) (o : GraphOptions)
    (out : Text) (h : Line env.digit graphTable args acts) (ho : GraphGiven env disk acts o out) :
    EndsAs (.image out) (cliGraph env o) (cliMain env g k str disk ("graph".toList :: args)).result := by
  obtain ⟨files, -, e⟩ := C86_graph env hdot g k str disk args acts o out h ho
  rw [e]
  cases cliGraph env o with
  | usage => exact .usage
  | raised e => exact .raised e
  | done t => exact .done t

/-! The hypotheses of `C86_graph_ends` are met in the proof of `C86_data_loss`. -/

example := C86_run_ends demoCli asciiDigit_newline ascii_dot Toy.rng 0 Toy.unary demoDisk demoWords demoActs demoRun demo_line demo_means
example := C86_synth_ends demoCli ascii_dot Toy.rng 0 Toy.unary demoDisk synthWords synthActs demoSynth synth_line synth_demo_given

end
end TD
