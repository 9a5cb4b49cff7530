import Verif.Model.Algorithm
/-!
# Algorithm objects, iterator objects and generators over time

`BaseIterativeAlgorithm` objects are mutable (`results_log`, `start_time`), refer
to an iterator object that other algorithm objects may share, and `run_iter`
returns a generator whose body runs at the first `next`.  Here `run`, `run_iter`
and `log` are modelled statement by statement on a world of such objects;
addresses are indices.  Simplifications: data sets are immutable values; the
`Result` objects in a log are not mutated by the caller; calls do not run
concurrently (single thread).
-/

namespace TD

/-- An iterator object: configuration and mutable attributes. -/
structure IterObj (α : Type) where
  cfg : IterCfg α
  st : IterState α

/-- A `BaseIterativeAlgorithm` object (base.py:59-81): class and parameters, the
address of `self.iterator`, of the list `self.results_log` (or `None`), and
`self.start_time`. -/
structure AlgObj (α : Type) where
  kind : Kind α
  priors : Option Prior
  iterator : Nat
  log : Option Nat := none
  start : Option α := none

/-- A generator made by `run_iter` (base.py:128-138). -/
inductive GenState (S V X α : Type)
  /-- not started: `self` and `data` -/
  | fresh (alg : Nat) (d : Dataset S V X α)
  /-- suspended in `yield from` the list at address `log`, next index `pos` -/
  | active (log : Nat) (pos : Nat)
  /-- returned or raised -/
  | done

/-- All objects, and the number of calls of `time.time()` so far. -/
structure World (S V X α : Type) where
  iters : List (IterObj α) := []
  algs : List (AlgObj α) := []
  logs : List (List (Result S V X α)) := []
  gens : List (GenState S V X α) := []
  ticks : Nat := 0

/-- Python code acting on the world, possibly raising.  State changes made before
an exception remain. -/
def Act (S V X α β : Type) := World S V X α → World S V X α × Except PyErr β

namespace Act
variable {S V X α β γ : Type}

def pure (b : β) : Act S V X α β := fun w => (w, .ok b)
def raise (e : PyErr) : Act S V X α β := fun w => (w, .error e)
/-- Sequential composition. -/
def bind (x : Act S V X α β) (f : β → Act S V X α γ) : Act S V X α γ := fun w =>
  match x w with
  | (w, .ok b) => f b w
  | (w, .error e) => (w, .error e)
/-- A computation that does not touch the world. -/
def lift (x : Except PyErr β) : Act S V X α β := fun w => (w, x)
/-- An assignment. -/
def update (f : World S V X α → World S V X α) : Act S V X α Unit := fun w => (f w, .ok ())

instance : Monad (Act S V X α) where
  pure := pure
  bind := bind

/-- The object at an address; addresses in use are always valid. -/
def deref (o : World S V X α → Option β) : Act S V X α β := fun w =>
  match o w with
  | some b => (w, .ok b)
  | none => (w, .error .attributeError)
end Act

section
variable {S V X α : Type} [DecidableEq S] [DecidableEq V] [DecidableEq X] [Arith α]

/-- `time.time()` -/
def Act.time (clock : Nat → α) : Act S V X α α := fun w =>
  ({ w with ticks := w.ticks + 1 }, .ok (clock w.ticks))

/-- `self` -/
def Act.alg (a : Nat) : Act S V X α (AlgObj α) := .deref fun w => w.algs[a]?
/-- an iterator object -/
def Act.iter (i : Nat) : Act S V X α (IterObj α) := .deref fun w => w.iters[i]?
/-- update an iterator -/
def Act.setIter (i : Nat) (o : IterObj α) : Act S V X α Unit :=
  .update fun w => { w with iters := w.iters.set i o }
/-- update an algorithm object -/
def Act.setAlg (a : Nat) (o : AlgObj α) : Act S V X α Unit :=
  .update fun w => { w with algs := w.algs.set a o }
/-- `[]`: a new list object for log entries. -/
def Act.newLog : Act S V X α Nat := fun w =>
  ({ w with logs := w.logs ++ [[]] }, .ok w.logs.length)
/-- update a generator -/
def Act.setGen (g : Nat) (s : GenState S V X α) : Act S V X α Unit :=
  .update fun w => { w with gens := w.gens.set g s }

/-- `BaseIterativeAlgorithm.log` (base.py:152-164). -/
def logA (clock : Nat → α) (a : Nat) (d : Dataset S V X α) (t b : Vec α) :
    Act S V X α Unit := do
  let o ← Act.alg a
  match o.log with
  | none => Pure.pure ()
  | some L =>
    let trust ← Act.lift (d.trustDict t)
    let belief ← Act.lift (d.beliefDict b)
    let now ← Act.time clock
    let it ← Act.iter o.iterator
    let res : Result S V X α :=
      { trust, belief, time := now -. o.start.getD now, iterations := some it.st.itCount }
    Act.update fun w => { w with logs := w.logs.modify L (· ++ [res]) }

/-- The `while not self.iterator.finished()` loop of the `_run` methods. -/
def loopA (clock : Nat → α) (a : Nat) (d : Dataset S V X α) :
    Nat → Vec α → Vec α → Act S V X α (Vec α × Vec α)
  | 0, _, _ => Act.raise .diverge
  | fuel + 1, t, b => do
    let o ← Act.alg a
    let it ← Act.iter o.iterator
    let fin ← Act.lift (it.cfg.finished it.st)
    if fin then Pure.pure (t, b)
    else
      let s ← Act.lift (o.kind.body d.mats t b)
      match s with
      | none => Pure.pure (t, b)
      | some s =>
        Act.setIter o.iterator { it with st := it.cfg.after it.st s.cmp1 s.cmp2 }
        let _ ← Act.lift (it.cfg.compare it.st s.cmp1 s.cmp2)
        logA clock a d s.trust s.belief
        loopA clock a d fuel s.trust s.belief

/-- `self.log` before the loop, in the algorithms that have it. -/
def initLogA (clock : Nat → α) (a : Nat) (d : Dataset S V X α) (k : Kind α) (t b : Vec α) :
    Act S V X α Unit :=
  if k.logsInit then logA clock a d t b else Act.pure ()

/-- `self._run(data)`: vectors before the loop, `self.log`, the loop, and what
follows it (see `AlgCfg.init`, `AlgCfg.finish`). -/
def innerRunA (clock : Nat → α) (a : Nat) (d : Dataset S V X α) (fuel : Nat) :
    Act S V X α (Vec α × Vec α) := do
  let o ← Act.alg a
  let it ← Act.iter o.iterator
  let cfg : AlgCfg α := ⟨o.kind, it.cfg, o.priors⟩
  let tb ← Act.lift (cfg.init d.mats)
  initLogA clock a d o.kind tb.1 tb.2
  let tb ← loopA clock a d fuel tb.1 tb.2
  Act.lift (cfg.finish tb.1 tb.2)

/-- First lines of `run` and `run_iter` (base.py:115-118, 133-136). -/
def prepareA (clock : Nat → α) (a : Nat) (d : Dataset S V X α) :
    Act S V X α (AlgObj α) := do
  if d.mats.numClaims = 0 then Act.raise .emptyDataset
  else
    let o ← Act.alg a
    let it ← Act.iter o.iterator
    Act.setIter o.iterator { it with st := it.cfg.reset it.st }
    let start ← Act.time clock
    Pure.pure { o with start := some start }

/-- `BaseIterativeAlgorithm.run` (base.py:114-126). -/
def runA (clock : Nat → α) (a : Nat) (d : Dataset S V X α) (fuel : Nat) :
    Act S V X α (Result S V X α) := do
  let o ← prepareA clock a d
  Act.setAlg a { o with log := none }
  let tb ← innerRunA clock a d fuel
  let stop ← Act.time clock
  let trust ← Act.lift (d.trustDict tb.1)
  let belief ← Act.lift (d.beliefDict tb.2)
  let o ← Act.alg a
  let it ← Act.iter o.iterator
  Pure.pure { trust, belief, time := stop -. o.start.getD stop, iterations := some it.st.itCount }

/-- `next` on a generator suspended in `yield from`: `none` is `StopIteration`. -/
def resumeA (g L pos : Nat) : Act S V X α (Option (Result S V X α)) := fun w =>
  match (w.logs.getD L [])[pos]? with
  | some r => ({ w with gens := w.gens.set g (.active L (pos + 1)) }, .ok (some r))
  | none => ({ w with gens := w.gens.set g .done }, .ok none)

/-- `next(generator)` (base.py:128-138): the first call runs the whole algorithm. -/
def nextA (clock : Nat → α) (g : Nat) (fuel : Nat) :
    Act S V X α (Option (Result S V X α)) := do
  let s ← Act.deref fun w => w.gens[g]?
  match s with
  | .done => Pure.pure none
  | .active L pos => resumeA g L pos
  | .fresh a d =>
    -- a generator that raises is finished
    Act.setGen g .done
    let o ← prepareA clock a d
    let L ← Act.newLog
    Act.setAlg a { o with log := some L }
    let _ ← innerRunA clock a d fuel
    let o ← Act.alg a
    match o.log with
    | some L => resumeA g L 0
    | none => Act.raise .typeError

/-- What a program can do with these objects. -/
inductive Op (S V X α : Type)
  | newIter (cfg : IterCfg α)
  /-- `Cls(iterator=.., priors=.., ..)` -/
  | newAlg (kind : Kind α) (priors : Option Prior) (iterator : Nat)
  | run (alg : Nat) (d : Dataset S V X α)
  /-- `g = alg.run_iter(d)` -/
  | runIter (alg : Nat) (d : Dataset S V X α)
  | next (g : Nat)
  /-- direct calls of the methods of an iterator object -/
  | iterReset (i : Nat)
  | iterCompare (i : Nat) (v w : Vec α)
  | iterFinished (i : Nat)

/-- What the program observes. -/
inductive Out (S V X α : Type)
  | unit
  | result (r : Result S V X α)
  | raised (e : PyErr)
  | stop
  /-- the value of `finished()` -/
  | answer (b : Bool)

/-- Value or exception as an observation. -/
def Out.ofExcept : Except PyErr (Result S V X α) → Out S V X α
  | .ok r => .result r
  | .error e => .raised e

/-- What `next` shows: a value, `StopIteration`, or another exception. -/
def Out.ofNext : Except PyErr (Option (Result S V X α)) → Out S V X α
  | .ok (some r) => .result r
  | .ok none => .stop
  | .error e => .raised e

/-- Effect and observation of one operation.  Operations on objects that do not
exist (yet) cannot be written in a program; here they do nothing. -/
def World.step (clock : Nat → α) (fuel : Nat) (w : World S V X α) :
    Op S V X α → World S V X α × Out S V X α
  | .newIter cfg => ({ w with iters := w.iters ++ [⟨cfg, {}⟩] }, .unit)
  | .newAlg kind priors i =>
    if i < w.iters.length then ({ w with algs := w.algs ++ [{ kind, priors, iterator := i }] }, .unit)
    else (w, .unit)
  | .run a d =>
    if a < w.algs.length then
      ((runA clock a d fuel w).1, .ofExcept (runA clock a d fuel w).2)
    else (w, .unit)
  | .runIter a d =>
    if a < w.algs.length then ({ w with gens := w.gens ++ [.fresh a d] }, .unit) else (w, .unit)
  | .next g =>
    if g < w.gens.length then
      ((nextA clock g fuel w).1, .ofNext (nextA clock g fuel w).2)
    else (w, .unit)
  | .iterReset i =>
    match w.iters[i]? with
    | some o => ({ w with iters := w.iters.set i { o with st := o.cfg.reset o.st } }, .unit)
    | none => (w, .unit)
  | .iterCompare i v u =>
    match w.iters[i]? with
    | some o =>
      ({ w with iters := w.iters.set i { o with st := o.cfg.after o.st v u } },
        match o.cfg.compare o.st v u with
        | .ok _ => .unit
        | .error e => .raised e)
    | none => (w, .unit)
  | .iterFinished i =>
    match w.iters[i]? with
    | some o =>
      (w, match o.cfg.finished o.st with
        | .ok b => .answer b
        | .error e => .raised e)
    | none => (w, .unit)

/-- A whole program: final world and all observations. -/
def World.exec (clock : Nat → α) (fuel : Nat) (w : World S V X α) :
    List (Op S V X α) → World S V X α × List (Op S V X α × Out S V X α)
  | [] => (w, [])
  | op :: ops =>
    let s := w.step clock fuel op
    let r := World.exec clock fuel s.1 ops
    (r.1, (op, s.2) :: r.2)
end

end TD
