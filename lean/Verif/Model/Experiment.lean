import Verif.Model.Client
import Verif.Model.Supervised
/-!
# The `debug` option of `ConvergenceIterator` (utils/iterator.py) and
`truthdiscovery/examples/convergence_test.py`

What is printed is a `Text`; it is kept when an exception is raised, so a call is modelled as
a pair of the printed text and the outcome.
-/

namespace TD
variable {S V X α : Type} [DecidableEq S] [DecidableEq V] [DecidableEq X] [Arith α]

/-- How numbers are written and read: `str` of an iteration count, `format` of a float, and
`float(text)` (parameters of the model). -/
structure Printer (α : Type) where
  count : Nat → Text
  number : α → Text
  float : Text → Except PyErr α

/-- `print("{},{}".format(self.it_count, self.current_distance))` (iterator.py:111-112). -/
def Printer.line (p : Printer α) (st : IterState α) : Text :=
  p.count st.itCount ++ [','] ++
    (match st.dist with
      | some x => p.number x
      | none => "None".toList) ++ ['\n']

/-- `ConvergenceIterator.compare` with its `debug` option (iterator.py:103-112); the other
iterators print nothing. -/
def IterCfg.compareDebug (p : Printer α) (debug : Bool) (c : IterCfg α) (st : IterState α) (v w : Vec α) :
    Text × Except PyErr (IterState α) :=
  match c.compare st v w with
  | .error e => ([], .error e)
  | .ok st' =>
    match c with
    | .conv _ _ _ => (if debug then p.line st' else [], .ok st')
    | _ => ([], .ok st')

/-- `loop` (Model/Algorithm.lean) with what it prints. -/
def loopDebug (p : Printer α) (debug : Bool) (it : IterCfg α)
    (body : Vec α → Vec α → Except PyErr (Option (Step α))) :
    Nat → IterState α → Vec α → Vec α → List (LogEntry α) → Text × Except PyErr (LoopEnd α)
  | 0, _, _, _, _ => ([], .error .diverge)
  | fuel + 1, st, t, b, log =>
    match it.finished st with
    | .error e => ([], .error e)
    | .ok true => ([], .ok { st, trust := t, belief := b, log })
    | .ok false =>
      match body t b with
      | .error e => ([], .error e)
      | .ok none => ([], .ok { st, trust := t, belief := b, log })
      | .ok (some s) =>
        match it.compareDebug p debug st s.cmp1 s.cmp2 with
        | (out, .error e) => (out, .error e)
        | (out, .ok st') =>
          let r := loopDebug p debug it body fuel st' s.trust s.belief
            (log ++ [⟨st'.itCount, s.trust, s.belief⟩])
          (out ++ r.1, r.2)

/-- `AlgCfg.exec` (base.py:114-119 and the `_run` methods) with what it prints. -/
def AlgCfg.execDebug (p : Printer α) (debug : Bool) (c : AlgCfg α) (m : Mats α) (fuel : Nat)
    (st : IterState α := {}) : Text × Except PyErr (RunOut α) :=
  if m.numClaims = 0 then ([], .error .emptyDataset)
  else
    match c.init m with
    | .error e => ([], .error e)
    | .ok (t0, b0) =>
      let st := c.iterator.reset st
      let r := loopDebug p debug c.iterator (c.kind.body m) fuel st t0 b0
        (if c.kind.logsInit then [⟨st.itCount, t0, b0⟩] else [])
      (r.1, r.2.bind fun e => (c.finish e.trust e.belief).bind fun tb =>
        .ok { trust := tb.1, belief := tb.2, iterations := e.st.itCount, log := e.log })

/-- `alg.run(data)` (base.py:114-126) with what it prints. -/
def AlgCfg.runDebug (p : Printer α) (debug : Bool) (c : AlgCfg α) (d : Dataset S V X α) (fuel : Nat)
    (clock : Nat → α) (st : IterState α := {}) : Text × Except PyErr (Result S V X α) :=
  let r := c.execDebug p debug d.mats fuel st
  (r.1, r.2.bind fun o => (d.trustDict o.trust).bind fun trust => (d.beliefDict o.belief).bind fun belief =>
    .ok { trust, belief, time := clock 1 -. clock 0, iterations := some o.iterations })

/-- `_, dist = line.split(","); float(dist)` (convergence_test.py:67-68). -/
def readDistance (p : Printer α) (line : Text) : Except PyErr α :=
  match split ',' line with
  | [_, dist] => p.float dist
  | _ => .error .valueError

/-- The loop over `stdout.getvalue().split("\n")` (convergence_test.py:63-68). -/
def readDistances (p : Printer α) (out : Text) : Except PyErr (List α) :=
  ((split '\n' out).filter fun line => !line.isEmpty).mapM (readDistance p)

/-- `ALGORITHMS` with the `__name__` of the classes (convergence_test.py:30). -/
def convergenceAlgorithms : List (Text × AlgLabel) :=
  [("Sums".toList, .sums), ("AverageLog".toList, .averageLog), ("Investment".toList, .investment),
    ("PooledInvestment".toList, .pooledInvestment), ("TruthFinder".toList, .truthfinder)]

/-- `cls(iterator=iterator)` with `ConvergenceIterator(DistanceMeasures.L2, 0, limit=100, debug=True)`
(convergence_test.py:31, 51-55). -/
def convergenceAlgorithm (cls : AlgLabel) : Except PyErr (AnyAlg α) :=
  makeAlg cls [("iterator".toList, .iterator (mkConv (some .l2) (some (Arith.ofNat 0)) (some 100)))]

/-- The distances recorded for one algorithm (convergence_test.py:52-68); `st` is the state in which
the previous algorithm left the shared iterator. -/
def convergenceSeries (p : Printer α) (d : Dataset S V X α) (fuel : Nat) (clock : Nat → α)
    (st : IterState α) (cls : AlgLabel) : Except PyErr (List α) :=
  match convergenceAlgorithm cls with
  | .error e => .error e
  | .ok .voting => .error .attributeError
  | .ok (.iter c) =>
    match c.runDebug p true d fuel clock st with
    | (out, .ok _) => readDistances p out
    | (out, .error .convergence) => readDistances p out
    | (_, .error e) => .error e

/-- `while len(dists) < max_its: dists.append(None)` (convergence_test.py:74-75). -/
def padSeries (n : Nat) (ds : List α) : List (Option α) :=
  ds.map some ++ List.replicate (n - ds.length) none

/-- What `main` (convergence_test.py:35-78) draws: the numbers on the horizontal axis and the curve of
every algorithm.  `sts k` is the state of the shared iterator before the `k`-th run (not determined
here, since an exception leaves it in some state: `run` resets it).  Simplification: the dictionary
`distances` is a list (the class names are distinct); drawing itself is not modelled. -/
def convergenceMain {Y : Type} [DecidableEq Y] (p : Printer α) (parse : Text → Parsed Y) (csv : Text) (fuel : Nat)
    (clock : Nat → Nat → α) (sts : Nat → IterState α) :
    Except PyErr (List Nat × List (Text × List (Option α))) :=
  match (SupervisedMatrix.fromCsv parse csv : Except PyErr (SupervisedMatrix Y α)) with
  | .error e => .error e
  | .ok sup =>
    match (enum convergenceAlgorithms).mapM fun q =>
        (convergenceSeries p sup.data.data fuel (clock q.1) (sts q.1) q.2.2).bind fun ds =>
          .ok (q.2.1, ds) with
    | .error e => .error e
    | .ok series =>
      let maxIts := (series.map fun q => q.2.length).foldl max 0
      .ok ((List.range maxIts).map (· + 1), series.map fun q => (q.1, padSeries maxIts q.2))

end TD
