import Verif.Model.Cli
import Verif.Spec.Web
import Verif.Spec.Synthetic
/-!
# What the commands should do
-/

namespace TD.Spec

/-- Names of the output fields. -/
def fieldName : Field → String
  | .time => "time"
  | .iterations => "iterations"
  | .trust => "trust"
  | .trustStats => "trust_stats"
  | .belief => "belief"
  | .beliefStats => "belief_stats"
  | .mostBelieved => "most_believed_values"
  | .accuracy => "accuracy"

/-- An option is given iff its value is, and then each text has the corresponding meaning. -/
inductive Each {β γ : Type} (means : β → γ → Prop) : Option (List β) → Option (List γ) → Prop
  | absent : Each means none none
  | given (ts : List β) (xs : List γ) (h : List.Forall₂ means ts xs) : Each means (some ts) (some xs)

/-- The dictionary holds the last value for each name. -/
def LastOf {ν : Type} (kvs : List (Text × ν)) (ps : Dict Text ν) : Prop :=
  ∀ k, ps.get? k = (kvs.reverse.find? fun kv => decide (kv.1 = k)).map Prod.snd

section
variable {X : Type} [DecidableEq X] {R : Rounding}

/-- The option values are proper: algorithms `cs`, parameters `kvs`, requested sources,
variables and output fields. -/
structure RunAccepted (env : CliEnv X R) (a : RunArgs) (cs : List AlgLabel) (kvs : List (Text × PVal (FP R)))
    (ss vs : Option (List Int)) (fields : List Field) : Prop where
  classes : List.Forall₂ (fun t c => t = (labelName c).toList) a.algorithms cs
  params : List.Forall₂ (fun t kv => ∃ value, Assignment t kv.1 value ∧
    Means env.digit env.parseFloat kv.1 value kv.2) (a.params.getD []) kvs
  sources : Each (fun t n => env.parseInt t = some n) a.sources ss
  vars : Each (fun t n => env.parseInt t = some n) a.vars vs
  output : (a.output = none ∧ fields = [.trust, .belief, .iterations, .time]) ∨
    ∃ ts, a.output = some ts ∧ List.Forall₂ (fun t f => t = (fieldName f).toList) ts fields

/-- The warnings about one algorithm. -/
def Warnings (ps : Dict Text (PVal (FP R))) (c : AlgLabel) (ws : List Text) : Prop :=
  ∃ ms, Messages ps c ms ∧ ws = ms.map fun m => "WARNING: ".toList ++ m

/-- The data of the command: the matrix of the file, without its first row if the data are
supervised; that row holds the true values. -/
inductive Loaded (env : CliEnv X R) (a : RunArgs) : Dataset Nat Nat X (FP R) → Option (Dict Nat X) → Prop
  | plain (g : Grid X) (d : Dataset Nat Nat X (FP R)) (hs : a.supervised = false)
      (hg : csvToMasked env.parseValue a.dataset = .ok g) (hd : Dataset.mk' (getTriples g) false none = .ok d) :
      Loaded env a d none
  | supervised (row : List (Option X)) (rest : Grid X) (d : Dataset Nat Nat X (FP R)) (values : Dict Nat X)
      (hs : a.supervised = true) (hg : csvToMasked env.parseValue a.dataset = .ok (row :: rest))
      (hd : Dataset.mk' (getTriples rest) false none = .ok d)
      (hv : ∀ j v, values.get? j = some v ↔ row[j]? = some (some v)) : Loaded env a d (some values)

/-- `n` is one of the requested numbers, if any are requested. -/
def Requested (l : Option (List Int)) (n : Nat) : Prop := ∀ ns, l = some ns → (n : Int) ∈ ns

/-- `r'` is `r` restricted to the requested sources and variables. -/
structure Restricted (r : Result Nat Nat X (FP R)) (ss vs : Option (List Int)) (r' : Result Nat Nat X (FP R)) :
    Prop where
  trust_in : ∀ s, Requested ss s → r'.trust.get? s = r.trust.get? s
  trust_out : ∀ s, ¬ Requested ss s → r'.trust.get? s = none
  belief_in : ∀ v, Requested vs v → r'.belief.get? v = r.belief.get? v
  belief_out : ∀ v, ¬ Requested vs v → r'.belief.get? v = none
  time : r'.time = r.time
  iterations : r'.iterations = r.iterations

/-- The output for one algorithm: the wanted fields of its restricted result. -/
def Displayed (env : CliEnv X R) (values : Option (Dict Nat X)) (ss vs : Option (List Int))
    (fields : List Field) (i : Nat) (r : Result Nat Nat X (FP R))
    (o : Dict Field (OutVal Nat Nat X (FP R))) : Prop :=
  ∃ r', Restricted r ss vs r' ∧
    (∀ f, (∃ v, o.get? f = some v) ↔ Wanted (some fields) f ∧ (f = .accuracy → values ≠ none)) ∧
    (∀ f v, o.get? f = some v → Shows env.ltVal r' (values.map fun v => (v, env.pick i)) f v)

/-- How the algorithm runs end: with the exception of the first that fails, or with an
output for each algorithm (the last run of an algorithm that is named twice). -/
inductive RunEnds (env : CliEnv X R) (ps : Dict Text (PVal (FP R))) (d : Dataset Nat Nat X (FP R))
    (values : Option (Dict Nat X)) (cs : List AlgLabel) (ss vs : Option (List Int)) (fields : List Field) :
    CliEnd (Dict Text (Dict Field (OutVal Nat Nat X (FP R)))) → Prop
  | raised (i : Nat) (c : AlgLabel) (alg : AnyAlg (FP R)) (e : PyErr) (hi : cs[i]? = some c)
      (hc : Constructed ps c alg) (he : alg.run d env.fuel (env.clock i) = .error e)
      (first : ∀ j < i, ∀ c' alg', cs[j]? = some c' → Constructed ps c' alg' →
        ∃ r, alg'.run d env.fuel (env.clock j) = .ok r) :
      RunEnds env ps d values cs ss vs fields (.raised e)
  | done (out : Dict Text (Dict Field (OutVal Nat Nat X (FP R))))
      (all : ∀ j c' alg', cs[j]? = some c' → Constructed ps c' alg' →
        ∃ r, alg'.run d env.fuel (env.clock j) = .ok r)
      (keys : out.keys = firsts (cs.map fun c => (labelName c).toList))
      (outputs : ∀ c o, out.get? (labelName c).toList = some o → ∃ i alg r, cs[i]? = some c ∧
        (∀ j, i < j → cs[j]? ≠ some c) ∧ Constructed ps c alg ∧
        alg.run d env.fuel (env.clock i) = .ok r ∧ Displayed env values ss vs fields i r o) :
      RunEnds env ps d values cs ss vs fields (.done out)

/-- An option with a number, or its default. -/
def OptionIs {γ : Type} (parse : Text → Option γ) (t : Option Text) (default x : γ) : Prop :=
  (t = none ∧ x = default) ∨ ∃ s, t = some s ∧ parse s = some x

/-- The arguments for `SyntheticData` that the options of `synth` stand for. -/
structure SynthMeans (env : CliEnv X R) (o : SynthOptions) (a : SynthArgs (FP R)) : Prop where
  trust : ∃ ts, a.trust = some ts ∧ List.Forall₂ (fun t x => env.parseFloat t = some x) o.trust ts
  numVars : OptionIs env.parseInt o.numVars 100 a.numVariables
  claimProb : OptionIs env.parseFloat o.claimProb (show FP R from R.rnd (1 / 2)) a.claimProbability
  domainSize : OptionIs env.parseInt o.domainSize 4 a.domainSize

/-- The drawing that the options of `graph` stand for: sizes in pixels, and whether rows and
columns are counted from 0 or 1. -/
structure GraphMeans (env : CliEnv X R) (o : GraphOptions) (width radius spacing font line border : Int)
    (first : Nat) : Prop where
  width : OptionIs env.parseInt o.width 800 width
  radius : OptionIs env.parseInt o.nodeRadius 50 radius
  spacing : OptionIs env.parseInt o.spacing 20 spacing
  font : OptionIs env.parseInt o.fontSize 15 font
  line : OptionIs env.parseInt o.lineWidth 3 line
  border : OptionIs env.parseInt o.nodeBorderWidth 3 border
  first : first = if o.oneIndexed then 1 else 0

/-- The renderer with these sizes. -/
noncomputable def cliDrawing (env : CliEnv X R) (width radius spacing font line border : Int) (first : Nat) :
    Renderer Nat Nat X Text where
  width := width
  nodeRadius := radius
  spacing := spacing
  lineWidth := line
  nodeBorderWidth := border
  fontSize := font
  colours := defaultScheme
  srcLabel := fun i => "s".toList ++ env.strNat (i + first)
  varLabel := fun i => "v".toList ++ env.strNat (i + first)
  claimLabel := fun i x => "v".toList ++ (env.strNat (i + first) ++ ("=".toList ++ withoutPointZero (env.strVal x)))
  lt := fun a b => decide (a < b)
  str := id

/-- Colours of sources, claims and variables. -/
noncomputable def kindColour : NodeHint Nat Nat X → Colour × Colour × Colour
  | .source _ => ([0.133, 0.40, 0.40], [1, 1, 1], [0.15, 0.15, 0.15])
  | .claim _ _ => ([0.478, 0.624, 0.208], [1, 1, 1], [0.15, 0.15, 0.15])
  | .var _ => ([0.667, 0.224, 0.224], [1, 1, 1], [0.15, 0.15, 0.15])

end
end TD.Spec
