import Verif.Model.Dataset
import Verif.Model.Iterator
/-!
# `truthdiscovery/algorithm/*.py`

`_run` of every algorithm only uses the sizes and matrices of the dataset
(`Mats`).  The `while not self.iterator.finished()` loops are run with fuel.
-/

namespace TD
variable {α : Type} [Arith α]

/-- `PriorBelief` (base.py:12-22). -/
inductive Prior
  | fixed | voted | count | uniform
deriving DecidableEq, Repr

/-- `data.sc @ np.ones(num_claims)`: claims per source. -/
def claimCounts (m : Mats α) : Vec α := m.sc.mulVec (ones m.numClaims)

/-- `data.sc.T @ np.ones(num_sources)`: sources per claim. -/
def sourceCounts (m : Mats α) : Vec α := m.sc.T.mulVec (ones m.numSources)

/-- `get_prior_beliefs` (base.py:88-112); `none` is any object that is not a
member of `PriorBelief`. -/
def priorBeliefs (p : Option Prior) (m : Mats α) : Except PyErr (Vec α) :=
  match p with
  | some .fixed => .ok (List.replicate m.numClaims (Arith.lit 1 2))
  | some .voted =>
    let sc := sourceCounts m
    .ok (vzip Arith.div sc (m.mutEx.mulVec sc))
  | some .count => .ok (sourceCounts m)
  | some .uniform => .ok ((m.mutEx.mulVec (ones m.numClaims)).map (Arith.ofNat 1 /. ·))
  | none => .error .valueError

/-- What one pass through a loop body produces: the arguments given to
`iterator.compare`, and the trust and belief afterwards. -/
structure Step (α : Type) where
  cmp1 : Vec α
  cmp2 : Vec α
  trust : Vec α
  belief : Vec α

/-- One entry of `results_log` before label lookup. -/
structure LogEntry (α : Type) where
  iterations : Nat
  trust : Vec α
  belief : Vec α

/-- State at the end of a loop. -/
structure LoopEnd (α : Type) where
  st : IterState α
  trust : Vec α
  belief : Vec α
  log : List (LogEntry α)

/-- `while not self.iterator.finished(): <body>; self.iterator.compare(..);
self.log(..)`, the loop shape shared by all `_run` methods.  `body` returns
`none` for `except EarlyFinishError: break`.  `log` collects what `self.log`
would append (base.py:152-164). -/
def loop (it : IterCfg α) (body : Vec α → Vec α → Except PyErr (Option (Step α))) :
    Nat → IterState α → Vec α → Vec α → List (LogEntry α) → Except PyErr (LoopEnd α)
  | 0, _, _, _, _ => .error .diverge
  | fuel + 1, st, t, b, log => do
    if ← it.finished st then return { st, trust := t, belief := b, log }
    match ← body t b with
    | none => return { st, trust := t, belief := b, log }
    | some s =>
      let st' ← it.compare st s.cmp1 s.cmp2
      loop it body fuel st' s.trust s.belief (log ++ [⟨st'.itCount, s.trust, s.belief⟩])

/-- `v / max(v)` with the builtin `max` (e.g. sums.py:24). -/
def normalise (v : Vec α) : Except PyErr (Vec α) := do
  let m ← pyMax v
  return v.map (· /. m)

/-- Loop body of `Sums._run` (sums.py:19-28). -/
def sumsBody (m : Mats α) (trust belief : Vec α) : Except PyErr (Option (Step α)) := do
  let newTrust := m.sc.mulVec belief
  let belief := m.sc.T.mulVec newTrust
  let newTrust ← normalise newTrust
  let belief ← normalise belief
  return some ⟨trust, newTrust, newTrust, belief⟩

/-- Log weighting of `AverageLog` (average_log.py:23-25). -/
def avlogWeights (m : Mats α) : Vec α :=
  (claimCounts m).map fun c => Arith.log c /. c

/-- Loop body of `AverageLog._run` (average_log.py:29-37). -/
def avlogBody (m : Mats α) (trust belief : Vec α) : Except PyErr (Option (Step α)) := do
  let newTrust := vzip Arith.mul (avlogWeights m) (m.sc.mulVec belief)
  let belief := m.sc.T.mulVec newTrust
  let newTrust ← normalise newTrust
  let belief ← normalise belief
  return some ⟨newTrust, trust, newTrust, belief⟩

/-- `sc_mat.multiply(row)` for a dense row vector: scale each stored entry by the
entry of its column (scipy broadcasting). -/
def Mat.scaleCols (M : Mat α) (x : Vec α) : Mat α :=
  { M with rows := M.rows.map fun r => r.map fun e => (e.1, e.2 *. x.at e.1) }

/-- `sc.T.multiply(row).T`: scale each stored entry by the entry of its row. -/
def Mat.scaleRows (M : Mat α) (x : Vec α) : Mat α :=
  { M with rows := (enum M.rows).map fun p => p.2.map fun e => (e.1, e.2 *. x.at p.1) }

/-- `Investment.update_trust` (investment.py:26-46); `none` is
`EarlyFinishError`. -/
def updateTrust (m : Mats α) (old belief : Vec α) : Option (Vec α) :=
  let amounts := vzip Arith.div old (claimCounts m)
  let inv := m.sc.T.mulVec amounts
  if inv.any (fun x => Arith.eq x (Arith.ofNat 0)) then none
  else
    let mat := m.sc.scaleCols (inv.map (Arith.ofNat 1 /. ·))
    some (vzip Arith.mul amounts (mat.mulVec belief))

/-- Loop body of `Investment._run` (investment.py:55-67). -/
def investBody (g : α) (m : Mats α) (trust belief : Vec α) :
    Except PyErr (Option (Step α)) := do
  match updateTrust m trust belief with
  | none => return none
  | some newTrust =>
    let belief := (m.sc.T.mulVec (vzip Arith.div newTrust (claimCounts m))).map (Arith.pow · g)
    let newTrust ← normalise newTrust
    let belief ← normalise belief
    return some ⟨newTrust, trust, newTrust, belief⟩

/-- Loop body of `PooledInvestment._run` (pooled_investment.py:32-48). -/
def pooledBody (g : α) (m : Mats α) (trust belief : Vec α) :
    Except PyErr (Option (Step α)) := do
  match updateTrust m trust belief with
  | none => return none
  | some newTrust =>
    let base := m.sc.T.mulVec (vzip Arith.div newTrust (claimCounts m))
    let returns := base.map (Arith.pow · g)
    let belief := vzip Arith.mul base (vzip Arith.div returns (m.mutEx.mulVec returns))
    let newTrust ← normalise newTrust
    let belief ← normalise belief
    return some ⟨newTrust, trust, newTrust, belief⟩

/-- `TruthFinder.get_log_trust` (truth_finder.py:42-56); `none` is
`EarlyFinishError`. -/
def logTrust (trust : Vec α) : Option (Vec α) :=
  if trust.any (fun t => Arith.eq t (Arith.ofNat 1)) then none
  else some (trust.map fun t => Arith.neg (Arith.log (Arith.ofNat 1 -. t)))

/-- `a_mat` (truth_finder.py:61-63). -/
def tfA (m : Mats α) : Mat α :=
  m.sc.scaleRows ((claimCounts m).map (Arith.ofNat 1 /. ·))

/-- Entry `(j, i)` of `imp.T @ sc.T` (scipy `csc` product): sum over the claims
`k` of source `i`, in id order, of `sc[i, k] * imp[k, j]`; `none` if no stored
entries meet. -/
def impScEntry (m : Mats α) (j i : Nat) : Option α :=
  let terms := (m.sc.rows.getD i []).filterMap fun e =>
    ((m.imp.rows.getD e.1 []).lookup j).map fun v => e.2 *. v
  if terms.isEmpty then none else some (terms.foldl Arith.add (Arith.ofNat 0))

/-- `b_mat = sc.T + influence_param * (imp.T @ sc.T)` (truth_finder.py:64); the
sparse sum stores only results that are not 0. -/
def tfB (rho : α) (m : Mats α) : Mat α where
  nrows := m.numClaims
  ncols := m.numSources
  rows := (List.range m.numClaims).map fun j => (List.range m.numSources).filterMap fun i =>
    let a := (m.sc.rows.getD i []).lookup j
    let c := (impScEntry m j i).map (rho *. ·)
    let v := match a, c with
      | none, none => none
      | some a, none => some a
      | none, some c => some c
      | some a, some c => some (a +. c)
    match v with
    | none => none
    | some v => if Arith.eq v (Arith.ofNat 0) then none else some (i, v)

/-- Loop body of `TruthFinder._run` (truth_finder.py:71-78). -/
def tfBody (rho gamma : α) (m : Mats α) (trust _belief : Vec α) :
    Except PyErr (Option (Step α)) :=
  match logTrust trust with
  | none => .ok none
  | some tau =>
    let logBelief := (tfB rho m).mulVec tau
    let belief := logBelief.map fun x =>
      Arith.ofNat 1 /. (Arith.ofNat 1 +. Arith.exp (Arith.neg gamma *. x))
    let newTrust := (tfA m).mulVec belief
    .ok (some ⟨newTrust, trust, newTrust, belief⟩)

/-- Row `k` of `z = mut_ex.toarray() * (np.tile(belief) - np.eye) ** 2`
(crh.py:28-30). -/
def crhZ (m : Mats α) (belief : Vec α) (k : Nat) : Vec α :=
  (List.range m.numClaims).map fun j =>
    let d := belief.at j -. (if k = j then Arith.ofNat 1 else Arith.ofNat 0)
    m.mutEx.get k j *. (d *. d)

/-- `alpha` (crh.py:31): `eps + data.sc @ z @ np.ones(num_claims)`; a sparse row
times a dense matrix sums the stored entries sequentially, the product with the
ones vector is a dense dot product. -/
def crhAlpha (eps : α) (m : Mats α) (belief : Vec α) : Vec α :=
  m.sc.rows.map fun r =>
    let row := (List.range m.numClaims).map fun j =>
      r.foldl (fun acc e => acc +. e.2 *. (crhZ m belief e.1).at j) (Arith.ofNat 0)
    eps +. Arith.dot row (ones m.numClaims)

/-- Loop body of `CRH._run` (crh.py:28-36). -/
def crhBody (eps : α) (m : Mats α) (trust belief : Vec α) :
    Except PyErr (Option (Step α)) :=
  let alpha := crhAlpha eps m belief
  let total := Arith.sum alpha
  let newTrust := alpha.map fun a => eps -. Arith.log (a /. total)
  let belief := (m.sc.T.mulVec newTrust).map (· /. Arith.sum newTrust)
  .ok (some ⟨trust, newTrust, newTrust, belief⟩)

/-- `if np.max(v) > 1000: v /= 1000` (unboundedsums.py:27-30). -/
def rescale (v : Vec α) : Except PyErr (Vec α) := do
  let mx ← npMax v
  return if Arith.lt (Arith.ofNat 1000) mx then v.map (· /. Arith.ofNat 1000) else v

/-- Loop body of `UnboundedSums._run` (unboundedsums.py:23-30). -/
def usumsBody (m : Mats α) (trust belief : Vec α) : Except PyErr (Option (Step α)) := do
  let newTrust := m.sc.mulVec belief
  let belief := m.sc.T.mulVec newTrust
  let trust' ← rescale newTrust
  let belief' ← rescale belief
  return some ⟨trust, newTrust, trust', belief'⟩

/-- The iterative algorithm classes with their own parameters. -/
inductive Kind (α : Type)
  | sums
  | averageLog
  | investment (g : α)
  | pooledInvestment (g : α)
  | truthFinder (influence damping initialTrust : α)
  | crh (eps : α)
  | unboundedSums

/-- An iterative algorithm object: class, parameters, `iterator`, `priors`. -/
structure AlgCfg (α : Type) where
  kind : Kind α
  iterator : IterCfg α
  priors : Option Prior

/-- What `_run` computes: returned vectors, `iterator.it_count`, and the log. -/
structure RunOut (α : Type) where
  trust : Vec α
  belief : Vec α
  iterations : Nat
  log : List (LogEntry α)

/-- Loop body of each class. -/
def Kind.body (k : Kind α) (m : Mats α) : Vec α → Vec α → Except PyErr (Option (Step α)) :=
  match k with
  | .sums => sumsBody m
  | .averageLog => avlogBody m
  | .investment g => investBody g m
  | .pooledInvestment g => pooledBody g m
  | .truthFinder rho gamma _ => tfBody rho gamma m
  | .crh eps => crhBody eps m
  | .unboundedSums => usumsBody m

/-- Vectors before the loop: sums.py:14-15, average_log.py:14-15,
investment.py:50-51, pooled_investment.py:26-27, truth_finder.py:66-67,
crh.py:23-25, unboundedsums.py:18-19. -/
def AlgCfg.init (c : AlgCfg α) (m : Mats α) : Except PyErr (Vec α × Vec α) :=
  match c.kind with
  | .sums | .averageLog | .unboundedSums => do
    let b ← priorBeliefs c.priors m
    return (zeros m.numSources, b)
  | .investment _ | .pooledInvestment _ => do
    let b ← priorBeliefs c.priors m
    return (ones m.numSources, b)
  | .truthFinder _ _ t0 => .ok (List.replicate m.numSources t0, zeros m.numClaims)
  | .crh _ => .ok (zeros m.numSources,
      (sourceCounts m).map (· /. Arith.ofNat m.numSources))

/-- Whether `_run` logs the initial state (all but CRH). -/
def Kind.logsInit : Kind α → Bool
  | .crh _ => false
  | _ => true

/-- What `_run` does after the loop: `UnboundedSums` asks its iterator for
ranking vectors (unboundedsums.py:33-36), which only
`OrdinalConvergenceIterator` has (`AttributeError` otherwise). -/
def AlgCfg.finish (c : AlgCfg α) (t b : Vec α) : Except PyErr (Vec α × Vec α) :=
  match c.kind with
  | .unboundedSums =>
    match c.iterator with
    | .ord _ => do
      let rt ← rankingVector t
      let rb ← rankingVector b
      return (rt.map Arith.ofNat, rb.map Arith.ofNat)
    | _ => .error .attributeError
  | _ => .ok (t, b)

/-- `super().run(data); self.iterator.reset(); ...; self._run(data)`
(base.py:114-119, 128-137 and the `_run` methods), started from iterator state
`st`. -/
def AlgCfg.exec (c : AlgCfg α) (m : Mats α) (fuel : Nat) (st : IterState α := {}) :
    Except PyErr (RunOut α) := do
  if m.numClaims = 0 then throw .emptyDataset
  let st := c.iterator.reset st
  let (t0, b0) ← c.init m
  let log0 := if c.kind.logsInit then [⟨st.itCount, t0, b0⟩] else []
  let e ← loop c.iterator (c.kind.body m) fuel st t0 b0 log0
  let (t, b) ← c.finish e.trust e.belief
  return { trust := t, belief := b, iterations := e.st.itCount, log := e.log }

/-- `Result` (output/result.py:12-26). -/
structure Result (S V X α : Type) where
  trust : Dict S α
  belief : Dict V (Dict X α)
  time : α
  iterations : Option Nat

section
variable {S V X : Type} [DecidableEq S] [DecidableEq V] [DecidableEq X]

/-- `BaseIterativeAlgorithm.run` (base.py:114-126).  `clock k` is the `k`-th
value returned by `time.time()`. -/
def AlgCfg.run (c : AlgCfg α) (d : Dataset S V X α) (fuel : Nat) (clock : Nat → α)
    (st : IterState α := {}) : Except PyErr (Result S V X α) := do
  let r ← c.exec d.mats fuel st
  let trust ← d.trustDict r.trust
  let belief ← d.beliefDict r.belief
  return { trust, belief, time := clock 1 -. clock 0, iterations := some r.iterations }

/-- `BaseIterativeAlgorithm.log` (base.py:152-164) applied to all entries. -/
def logResults (d : Dataset S V X α) (clock : Nat → α) (log : List (LogEntry α)) :
    Except PyErr (List (Result S V X α)) :=
  (enum log).mapM fun p => do
    let trust ← d.trustDict p.2.trust
    let belief ← d.beliefDict p.2.belief
    return { trust, belief, time := clock (p.1 + 1) -. clock 0, iterations := some p.2.iterations }

/-- `list(alg.run_iter(data))` (base.py:128-138). -/
def AlgCfg.runIter (c : AlgCfg α) (d : Dataset S V X α) (fuel : Nat) (clock : Nat → α)
    (st : IterState α := {}) : Except PyErr (List (Result S V X α)) := do
  let r ← c.exec d.mats fuel st
  logResults d clock r.log

/-- `MajorityVoting.run` (voting.py:15-29). -/
def votingRun (d : Dataset S V X α) (clock : Nat → α) : Except PyErr (Result S V X α) := do
  if d.mats.numClaims = 0 then throw .emptyDataset
  let cb := sourceCounts d.mats
  let mx ← npMax cb
  let trust ← d.trustDict (ones d.mats.numSources)
  let belief ← d.beliefDict (cb.map (· /. mx))
  return { trust, belief, time := clock 1 -. clock 0, iterations := none }
end

end TD
