import Verif.Model.Supervised
/-!
# `truthdiscovery/client/base.py`

Numbers are parsed by `parseFloat` (`float`, `none` is `ValueError`) and `digit`
(decimal value of a Unicode digit, `none` if `\d` does not match); both are
parameters, so the theorems hold for whatever they accept.
-/

namespace TD

/-! ### The regular expressions -/

/-- An item of a regular expression, as far as base.py uses them: a literal, a
captured greedy repetition `(?P<g>[..]+)`, an optional group `(...)?` made of the
next `k` items, and `$`. -/
inductive ReItem
  | lit (t : Text)
  | plus (cls : Char → Bool) (g : Nat)
  | opt (k : Nat)
  | eos

/-- Captured groups. -/
abbrev Groups := List (Nat × Text)

/-- `re.match`: backtracking from the left end of the text, longest repetitions
first; `$` matches at the end and before a newline at the end. -/
def reMatch : List ReItem → Text → Groups → Option Groups
  | [], _, g => some g
  | .lit t :: r, s, g =>
    match t.isPrefixOf? s with
    | some s' => reMatch r s' g
    | none => none
  | .plus cls n :: r, s, g =>
    (List.range' 1 (s.takeWhile cls).length).reverse.findSome? fun k =>
      reMatch r (s.drop k) (g ++ [(n, s.take k)])
  | .opt k :: r, s, g =>
    match reMatch r s g with
    | some g' => some g'
    | none => reMatch (r.drop k) s g
  | .eos :: r, s, g => if s = [] ∨ s = ['\n'] then reMatch r s g else none
termination_by r => r.length
decreasing_by all_goals simp_wf; try omega

/-- `fixed-(?P<limit>\d+)$` (client/base.py:94) -/
def fixedRegex (digit : Char → Option Nat) : List ReItem :=
  [.lit "fixed-".toList, .plus (fun c => (digit c).isSome) 0, .eos]

/-- `(?P<measure>[^-]+)-convergence-(?P<threshold>[^-]+)(-limit-(?P<limit>\d+))?$`
(client/base.py:95-98) -/
def convergenceRegex (digit : Char → Option Nat) : List ReItem :=
  [.plus (fun c => c ≠ '-') 1, .lit "-convergence-".toList, .plus (fun c => c ≠ '-') 2,
   .opt 2, .lit "-limit-".toList, .plus (fun c => (digit c).isSome) 0, .eos]

/-- `match.group(g)` for a group that took part in the match. -/
def Groups.text (g : Groups) (n : Nat) : Text := (g.lookup n).getD []

/-- `int(text)` for a text of digits.  Simplification: Python versions that refuse
to convert more than 4300 digits raise `ValueError`. -/
def readInt (digit : Char → Option Nat) (t : Text) : Nat :=
  t.foldl (fun n c => 10 * n + (digit c).getD 0) 0

/-- `DistanceMeasures(text)` (iterator.py:8-21). -/
def readMeasure (t : Text) : Except PyErr Measure :=
  if t = "l1".toList then .ok .l1
  else if t = "l2".toList then .ok .l2
  else if t = "l_inf".toList then .ok .lInf
  else if t = "cosine".toList then .ok .cosine
  else .error .valueError

/-- `PriorBelief(text)` (base.py:12-22). -/
def readPrior (t : Text) : Except PyErr Prior :=
  if t = "fixed".toList then .ok .fixed
  else if t = "voted".toList then .ok .voted
  else if t = "count".toList then .ok .count
  else if t = "uniform".toList then .ok .uniform
  else .error .valueError

variable {S V X α : Type} [DecidableEq S] [DecidableEq V] [DecidableEq X] [Arith α]

/-- `BaseClient.get_iterator` (client/base.py:90-130). -/
def getIterator (digit : Char → Option Nat) (parseFloat : Text → Option α) (s : Text)
    (maxLimit : Int := 200) : Except PyErr (IterCfg α) :=
  match reMatch (fixedRegex digit) s [] with
  | some g =>
    let limit : Int := readInt digit (Groups.text g 0)
    if limit > maxLimit then .error .valueError
    else mkFixed (some limit)
  | none =>
    match reMatch (convergenceRegex digit) s [] with
    | none => .error .valueError
    | some g => do
      let measure ← readMeasure (Groups.text g 1)
      let threshold ← match parseFloat (Groups.text g 2) with
        | some x => pure x
        | none => throw .valueError
      match g.lookup 0 with
      | none => return mkConv (some measure) (some threshold) (some maxLimit)
      | some t =>
        let limit : Int := readInt digit t
        if limit > maxLimit then throw .valueError
        else return mkConv (some measure) (some threshold) (some limit)

/-! ### Parameters -/

/-- A parameter value made by `algorithm_parameter`. -/
inductive PVal (α : Type)
  | iterator (it : IterCfg α)
  | prior (p : Prior)
  | num (x : α)

/-- `text.split(sep, maxsplit=1)` unpacked into two; `none` if `sep` does not
occur. -/
def splitOnce (sep : Char) : Text → Option (Text × Text)
  | [] => none
  | c :: cs =>
    if c = sep then some ([], cs)
    else match splitOnce sep cs with
      | none => none
      | some (a, b) => some (c :: a, b)

/-- `BaseClient.algorithm_parameter` (client/base.py:69-88). -/
def algorithmParameter (digit : Char → Option Nat) (parseFloat : Text → Option α) (s : Text) :
    Except PyErr (Text × PVal α) :=
  match splitOnce '=' s with
  | none => .error .valueError
  | some (a, b) =>
    let param := strip a
    let value := strip b
    if param = "iterator".toList then do
      return (param, .iterator (← getIterator digit parseFloat value))
    else if param = "priors".toList then do
      return (param, .prior (← readPrior value))
    else match parseFloat value with
      | some x => .ok (param, .num x)
      | none => .error .valueError

/-- The algorithm classes of the client (client/base.py:43-52). -/
inductive AlgLabel
  | averageLog | investment | pooledInvestment | sums | usums | truthfinder | crh | voting
deriving DecidableEq, Repr

/-- Keys of `ALG_LABEL_MAPPING` (client/base.py:43-52). -/
def AlgLabel.name : AlgLabel → Text
  | .averageLog => "average_log".toList
  | .investment => "investment".toList
  | .pooledInvestment => "pooled_investment".toList
  | .sums => "sums".toList
  | .usums => "usums".toList
  | .truthfinder => "truthfinder".toList
  | .crh => "crh".toList
  | .voting => "voting".toList

/-- All classes. -/
def AlgLabel.all : List AlgLabel :=
  [.averageLog, .investment, .pooledInvestment, .sums, .usums, .truthfinder, .crh, .voting]

/-- `BaseClient.algorithm_cls` (client/base.py:54-67). -/
def algorithmCls (t : Text) : Except PyErr AlgLabel :=
  match AlgLabel.all.find? fun l => decide (l.name = t) with
  | some l => .ok l
  | none => .error .valueError

/-- `cls.get_parameter_names()` (algorithm/base.py:42-56): the keyword parameters of
the constructors of the class and its parents (a set, listed in some order). -/
def AlgLabel.paramNames : AlgLabel → List Text
  | .averageLog | .sums | .usums => ["iterator".toList, "priors".toList]
  | .investment | .pooledInvestment => ["g".toList, "iterator".toList, "priors".toList]
  | .truthfinder => ["influence_param".toList, "dampening_factor".toList, "initial_trust".toList,
      "iterator".toList, "priors".toList]
  | .crh => ["eps".toList, "iterator".toList, "priors".toList]
  | .voting => []

/-- `BaseClient.get_algorithm_params` (client/base.py:138-147); `ord` is the order in
which Python iterates over the set of names. -/
def getAlgorithmParams (ord : List Text → List Text) (c : AlgLabel) (params : Dict Text (PVal α)) :
    Dict Text (PVal α) × List Text :=
  let filtered := filterDict params (ord c.paramNames)
  (filtered, params.keys.filter fun k => !(filtered.has k))

/-- An algorithm object of any class. -/
inductive AnyAlg (α : Type)
  | voting
  | iter (c : AlgCfg α)

/-- A numeric keyword argument. -/
def kwNum (params : Dict Text (PVal α)) (name : Text) (default : α) : Except PyErr α :=
  match params.get? name with
  | none => .ok default
  | some (.num x) => .ok x
  | some _ => .error .typeError

/-- The keyword argument `iterator`. -/
def kwIter (params : Dict Text (PVal α)) (default : IterCfg α) : Except PyErr (IterCfg α) :=
  match params.get? "iterator".toList with
  | none => .ok default
  | some (.iterator it) => .ok it
  | some _ => .error .typeError

/-- The keyword argument `priors`. -/
def kwPrior (params : Dict Text (PVal α)) (default : Prior) : Except PyErr Prior :=
  match params.get? "priors".toList with
  | none => .ok default
  | some (.prior p) => .ok p
  | some _ => .error .typeError

/-- `cls(**params)` (client/base.py:132-136 and the constructors: algorithm/base.py:68-78,
crh.py:12-20, investment.py:17-24, truth_finder.py:16-37) with the class defaults
`g`, `eps`, `influence_param`, `dampening_factor`, `initial_trust`, `priors` and
`get_default_iterator`.  An unknown keyword is a `TypeError`.  Simplification: so is
a value of the wrong kind (Python would accept it and fail later; the client never
produces one). -/
def makeAlg (c : AlgLabel) (params : Dict Text (PVal α)) : Except PyErr (AnyAlg α) := do
  if !(params.keys.all fun k => decide (k ∈ c.paramNames)) then throw .typeError
  let it := kwIter params
  let pr := kwPrior params
  match c with
  | .voting => return .voting
  | .sums => return .iter ⟨.sums, ← it (.fixed 20), ← pr .fixed⟩
  | .averageLog => return .iter ⟨.averageLog, ← it (.fixed 20), ← pr .fixed⟩
  | .usums => return .iter ⟨.unboundedSums, ← it (mkOrd none), ← pr .count⟩
  | .investment =>
    return .iter ⟨.investment (← kwNum params "g".toList (Arith.lit 12 10)), ← it (.fixed 20), ← pr .voted⟩
  | .pooledInvestment =>
    return .iter ⟨.pooledInvestment (← kwNum params "g".toList (Arith.lit 14 10)), ← it (.fixed 10),
      ← pr .uniform⟩
  | .crh => return .iter ⟨.crh (← kwNum params "eps".toList (Arith.lit 1 100000)), ← it (.fixed 20), ← pr .fixed⟩
  | .truthfinder =>
    return .iter ⟨.truthFinder (← kwNum params "influence_param".toList (Arith.lit 1 2))
      (← kwNum params "dampening_factor".toList (Arith.lit 3 10))
      (← kwNum params "initial_trust".toList (Arith.lit 9 10)),
      ← it (mkConv (some .cosine) (some (Arith.lit 1 1000)) none), ← pr .fixed⟩

/-- `alg.run(data)` of an algorithm of any class. -/
def AnyAlg.run (a : AnyAlg α) (d : Dataset S V X α) (fuel : Nat) (clock : Nat → α) :
    Except PyErr (Result S V X α) :=
  match a with
  | .voting => votingRun d clock
  | .iter c => c.run d fuel clock

/-! ### Output -/

/-- `OutputFields` (client/base.py:25-36), in order of definition. -/
inductive Field
  | accuracy | belief | beliefStats | iterations | mostBelieved | time | trust | trustStats
deriving DecidableEq, Repr

/-- `list(OutputFields)` -/
def Field.all : List Field :=
  [.accuracy, .belief, .beliefStats, .iterations, .mostBelieved, .time, .trust, .trustStats]

/-- A value in the output dictionary. -/
inductive OutVal (S V X α : Type)
  | accuracy (x : Option α)
  | belief (d : Dict V (Dict X α))
  | beliefStats (d : Dict V (α × α))
  | iterations (n : Option Nat)
  | mostBelieved (d : Dict V (List X))
  | time (x : α)
  | trust (d : Dict S α)
  | trustStats (s : α × α)

/-- Body of the loop over the variables in `get_output_obj` (client/base.py:200-205). -/
def mostBelievedStep (lt : X → X → Bool) (r : Result S V X α) (acc : Dict V (List X)) (var : V) :
    Except PyErr (Dict V (List X)) :=
  match r.mostBelieved var with
  | .ok best => .ok (acc.set var (pySorted lt best))
  | .error e => .error e

/-- Body of the loop over the fields in `get_output_obj` (client/base.py:169-206);
`sup` holds the true values and the choices of `random.choice`, `lt` is `<` on value
labels (`sorted`; labels that cannot be compared are not modelled). -/
def outField (lt : X → X → Bool) (r : Result S V X α) (sup : Option (Dict V X × (Nat → Nat → Nat))) :
    Field → Except PyErr (Option (OutVal S V X α))
  | .time => .ok (some (.time r.time))
  | .iterations => .ok (some (.iterations r.iterations))
  | .trust => .ok (some (.trust r.trust))
  | .belief => .ok (some (.belief r.belief))
  | .trustStats => .ok (some (.trustStats r.trustStats))
  | .beliefStats => .ok (some (.beliefStats r.beliefStats))
  | .accuracy =>
    match sup with
    | none => .ok none
    | some (values, pick) =>
      match getAccuracy values pick r with
      | .ok a => .ok (some (.accuracy (some a)))
      | .error .valueError => .ok (some (.accuracy none))
      | .error e => .error e
  | .mostBelieved => do
    return some (.mostBelieved (← r.belief.keys.foldlM (mostBelievedStep lt r) []))

/-- `out[field.value] = ...` (client/base.py:169-206). -/
def outStep (lt : X → X → Bool) (r : Result S V X α) (sup : Option (Dict V X × (Nat → Nat → Nat)))
    (out : Dict Field (OutVal S V X α)) (f : Field) : Except PyErr (Dict Field (OutVal S V X α)) :=
  match outField lt r sup f with
  | .error e => .error e
  | .ok none => .ok out
  | .ok (some v) => .ok (out.set f v)

/-- `BaseClient.get_output_obj` (client/base.py:161-208). -/
def getOutputObj (lt : X → X → Bool) (r : Result S V X α) (fields : Option (List Field))
    (sup : Option (Dict V X × (Nat → Nat → Nat))) : Except PyErr (Dict Field (OutVal S V X α)) :=
  let fields := match fields with
    | none => Field.all
    | some fs => if fs.isEmpty then Field.all else fs
  fields.foldlM (outStep lt r sup) []

end TD
