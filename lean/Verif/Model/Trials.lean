import Verif.Model.Client
import Verif.Model.Synthetic
/-!
# `truthdiscovery/examples/synthetic_experiment.py` and `truthdiscovery/examples/timing_test.py`

Random numbers, the choices of `get_accuracy` and the clock are oracles.  Algorithm objects are
shared by all runs; that the iterator of such an object carries nothing over to its next run is C24,
so every run is started from the initial state here.  What is printed to stderr and drawn by
matplotlib is not modelled.
-/

namespace TD
variable {α L : Type} [Arith α] [DecidableEq L]

/-- What is left of an iterator: the remaining values, or (`itertools.repeat`) one value for ever. -/
inductive Supply (β : Type)
  | rest (l : List β)
  | always (b : β)

/-- `next(seq)`; `none` is `StopIteration`. -/
def Supply.next {β : Type} : Supply β → Option (β × Supply β)
  | .rest [] => none
  | .rest (b :: l) => some (b, .rest l)
  | .always b => some (b, .always b)

/-- A value for `trust`: an array, or a function that draws one. -/
inductive TrustParam (α : Type)
  | array (t : Vec α)
  | draw (f : Rand (Vec α))

/-- The class attribute `synth_params` once an object of the class exists
(synthetic_experiment.py:41-51): it belongs to the class, so all objects of the class share it.
Simplification: the four arguments of `SyntheticData`, of which only `trust` may be a function
(as in the classes of the script). -/
structure SynthParams (α : Type) where
  trust : Supply (TrustParam α)
  numVariables : Supply Int
  claimProbability : Supply α
  domainSize : Supply Int

/-- The values for one label. -/
structure SynthChoice (α : Type) where
  trust : TrustParam α
  numVariables : Int
  claimProbability : α
  domainSize : Int

/-- How a run of an experiment fails. -/
inductive TrialErr
  /-- `RuntimeError`: `StopIteration` raised inside the generator `inner` (PEP 479). -/
  | runtimeError
  | py (e : PyErr)
deriving DecidableEq, Repr

/-- `get_synth_params` (synthetic_experiment.py:75-80); `none` is `RuntimeError`. -/
def SynthParams.next (p : SynthParams α) : Option (SynthChoice α × SynthParams α) := do
  let (t, t') ← p.trust.next
  let (n, n') ← p.numVariables.next
  let (c, c') ← p.claimProbability.next
  let (d, d') ← p.domainSize.next
  return (⟨t, n, c, d⟩, ⟨t', n', c', d'⟩)

/-- The oracles: numpy's generator, `random.choice` and the clock (indexed by the number of runs of
algorithms so far), and the bound on the number of iterations. -/
structure TrialEnv (α : Type) where
  rng : Rng α
  pick : Nat → Nat → Nat → Nat
  clock : Nat → Nat → α
  fuel : Nat

/-- `try: val() except TypeError: val` (synthetic_experiment.py:62-65) for `trust`: an array cannot be
called.  If the function itself raises `TypeError`, it is passed on to `SyntheticData`, which asks for
its `ndim`. -/
def callTrust : TrustParam α → Rand (Vec α)
  | .array t => Pure.pure t
  | .draw f => fun k =>
    match f k with
    | .error .typeError => .error .attributeError
    | r => r

/-- The dataset of one repetition (synthetic_experiment.py:60-67). -/
def trialData (g : Rng α) (q : SynthChoice α) : Rand (SupervisedMatrix Nat α) := fun k =>
  match callTrust q.trust k with
  | .error e => .error e
  | .ok (t, k) => synthNew g ⟨some t, q.numVariables, q.claimProbability, q.domainSize⟩ k

/-- The loop over the algorithms (synthetic_experiment.py:68-71); `c` counts the runs. -/
def trialAlgs (env : TrialEnv α) (s : SupervisedMatrix Nat α) :
    List (Text × AnyAlg α) → Dict Text (List α) → Nat → Except PyErr (Dict Text (List α) × Nat)
  | [], res, c => .ok (res, c)
  | (label, a) :: rest, res, c =>
    match a.run s.data.data env.fuel (env.clock c) with
    | .error e => .error e
    | .ok r =>
      match getAccuracy s.values (env.pick c) r with
      | .error e => .error e
      | .ok acc => trialAlgs env s rest (res.set label ((res.get? label).getD [] ++ [acc])) (c + 1)

/-- The repetitions for one label (synthetic_experiment.py:59-71). -/
def trialReps (env : TrialEnv α) (algs : List (Text × AnyAlg α)) (q : SynthChoice α) :
    Nat → Dict Text (List α) → Nat × Nat → Except PyErr (Dict Text (List α) × Nat × Nat)
  | 0, res, kc => .ok (res, kc)
  | n + 1, res, (k, c) =>
    match trialData env.rng q k with
    | .error e => .error e
    | .ok (s, k) =>
      match trialAlgs env s algs res c with
      | .error e => .error e
      | .ok (res, c) => trialReps env algs q n res (k, c)

/-- `Experiment.run` (synthetic_experiment.py:53-73): the results by label and what is left of the
parameters. -/
def experimentRun (env : TrialEnv α) (algs : List (Text × AnyAlg α)) (reps : Nat) :
    List L → Dict L (Dict Text (List α)) → SynthParams α → Nat × Nat →
    Except TrialErr (Dict L (Dict Text (List α)) × SynthParams α × Nat × Nat)
  | [], out, p, kc => .ok (out, p, kc)
  | label :: rest, out, p, kc =>
    match p.next with
    | none => .error .runtimeError
    | some (q, p) =>
      match trialReps env algs q reps [] kc with
      | .error e => .error (.py e)
      | .ok (res, kc) => experimentRun env algs reps rest (out.set label res) p kc

/-- `ALGORITHMS` (synthetic_experiment.py:24-31); the defaults are those of `makeAlg`. -/
def experimentAlgorithms : Except PyErr (List (Text × AnyAlg α)) :=
  ([("Voting".toList, .voting), ("Sums".toList, .sums), ("Average.Log".toList, .averageLog),
    ("Investment".toList, .investment), ("Pooled Investment".toList, .pooledInvestment),
    ("TruthFinder".toList, .truthfinder)] : List (Text × AlgLabel)).mapM fun p =>
    match makeAlg p.2 [] with
    | .error e => .error e
    | .ok a => .ok (p.1, a)

/-- `Experiment.reps` (synthetic_experiment.py:40). -/
def experimentReps : Nat := 10

/-- `lambda: np.random.uniform(size=(n,))` (synthetic_experiment.py:113, 162, 198) -/
def uniformTrust (g : Rng α) : Nat → Rand (Vec α)
  | 0 => Pure.pure []
  | n + 1 => do
    let u ← g.sample
    let us ← uniformTrust g n
    Pure.pure (u :: us)

/-- `domain_sizes` and `labels` of `DomainSizeExperiment` (synthetic_experiment.py:205-206). -/
def domainSizes : List Int := (List.range 19).map fun (i : Nat) => (i : Int) + 2

/-- `DomainSizeExperiment()` (synthetic_experiment.py:194-208): the class attribute after an object has
been created, whatever it was before: the entry that varies is replaced, `iter` of the others is what
they are. -/
def newDomainSize (g : Rng α) : SynthParams α :=
  { trust := .always (.draw (uniformTrust g 100)), numVariables := .always 100,
    claimProbability := .always (Arith.lit 1 10), domainSize := .rest domainSizes }

/-- `claim_probs` of `ClaimDensityExperiment` (synthetic_experiment.py:169): 19 numbers, since
`(1.025 - 0.1) / 0.05` is between 18 and 19; numpy's `arange` adds multiples of the difference of the
first two. -/
def claimProbs : List α :=
  let start : α := Arith.lit 1 10
  let delta : α := (start +. Arith.lit 1 20) -. start
  (List.range 19).map fun i => clip01 (start +. Arith.ofNat i *. delta)

/-- `ClaimDensityExperiment()` (synthetic_experiment.py:158-172). -/
def newClaimDensity (g : Rng α) : SynthParams α :=
  { trust := .always (.draw (uniformTrust g 100)), numVariables := .always 100,
    claimProbability := .rest claimProbs, domainSize := .always 10 }

/-- The array of "Mostly Bad" (synthetic_experiment.py:109-112): `i < 100 / 3`. -/
def mostlyBad : Vec α := (List.range 100).map fun i => if 3 * i < 100 then Arith.lit 3 4 else Arith.lit 1 4

/-- `trust_dists` (synthetic_experiment.py:108-118); `normals` is what `np.random.normal(0.5, 0.15,
size=(100,))` would give. -/
def trustDists (g : Rng α) (normals : Rand (Vec α)) : List (Text × TrustParam α) :=
  [("Mostly Bad".toList, .array mostlyBad), ("Uniform".toList, .draw (uniformTrust g 100)),
    ("Normal ($\\mu=0.5$, $\\sigma=0.15$)".toList, .draw fun k =>
      match normals k with
      | .error e => .error e
      | .ok (v, k) => .ok (v.map clip01, k))]

/-- `TrustDistExperiment()` (synthetic_experiment.py:96-121). -/
def newTrustDist (g : Rng α) (normals : Rand (Vec α)) : SynthParams α :=
  { trust := .rest ((trustDists g normals).map Prod.snd), numVariables := .always 100,
    claimProbability := .always (Arith.lit 1 10), domainSize := .always 5 }

/-! ### `timing_test.py` -/

/-- `master_sv[0:num_sources, 0:num_vars]` (timing_test.py:82). -/
def subGrid {X : Type} (g : Grid X) (n m : Nat) : Grid X := (g.take n).map (·.take m)

/-- The loop over the algorithms (timing_test.py:84-91); `c` counts the runs. -/
def timeAlgs {X : Type} [DecidableEq X] (env : TrialEnv α) (d : MatrixDataset X α) :
    List (Text × AnyAlg α) → Dict Text (List α) → Nat → Except PyErr (Dict Text (List α) × Nat)
  | [], res, c => .ok (res, c)
  | (label, a) :: rest, res, c =>
    match a.run d.data env.fuel (env.clock c) with
    | .error e => .error e
    | .ok r =>
      let res := if res.has label then res else res.set label []
      timeAlgs env d rest (res.set label ((res.get? label).getD [] ++ [r.time])) (c + 1)

/-- `perform_test` (timing_test.py:65-92). -/
def performTest {X : Type} [DecidableEq X] (env : TrialEnv α) (algs : List (Text × AnyAlg α)) (sv : Grid X) :
    List (Nat × Nat) → Dict Text (List α) → Nat → Except PyErr (Dict Text (List α) × Nat)
  | [], res, c => .ok (res, c)
  | (n, m) :: shapes, res, c =>
    match MatrixDataset.mk' (α := α) (.two (subGrid sv n m)) with
    | .error e => .error e.toPy
    | .ok d =>
      match timeAlgs env d algs res c with
      | .error e => .error e
      | .ok (res, c) => performTest env algs sv shapes res c

/-- `DATA_SIZES` (timing_test.py:23). -/
def dataSizes : List Nat := (List.range 10).map fun i => 100 + 200 * i

/-- The shapes tested by `generate_timings` (timing_test.py:54-55). -/
def timingShapes : List (Nat × Nat) × List (Nat × Nat) :=
  (dataSizes.map fun n => (n, 500), dataSizes.map fun n => (500, n))

end TD
