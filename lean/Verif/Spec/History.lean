import Verif.Model.History
/-!
# What the constructor calls in a program say about its objects
-/

namespace TD.Spec
variable {S V X α : Type} [DecidableEq S] [DecidableEq V] [DecidableEq X] [Arith α]

/-- The dataset was made by the constructor from some triples. -/
def Built (d : Dataset S V X α) : Prop := ∃ l am f, Dataset.mk' l am f = .ok d

/-- The operation only uses datasets made by the constructor. -/
def OpOk : Op S V X α → Prop
  | .run _ d => Built d
  | .runIter _ d => Built d
  | _ => True

/-- The constructor calls made so far, each list in order of creation: iterators,
algorithm objects (class, priors, iterator address), generators (algorithm
address, dataset).  Nothing about runs, results or mutable attributes. -/
structure Decl (S V X α : Type) where
  iters : List (IterCfg α) := []
  algs : List (Kind α × Option Prior × Nat) := []
  gens : List (Nat × Dataset S V X α) := []

/-- Only constructor calls and `run_iter` calls matter here. -/
def Decl.step (D : Decl S V X α) : Op S V X α → Decl S V X α
  | .newIter cfg => { D with iters := D.iters ++ [cfg] }
  | .newAlg k p i => if i < D.iters.length then { D with algs := D.algs ++ [(k, p, i)] } else D
  | .runIter a d => if a < D.algs.length then { D with gens := D.gens ++ [(a, d)] } else D
  | _ => D

/-- All constructor calls of a program. -/
def declared (ops : List (Op S V X α)) : Decl S V X α := ops.foldl Decl.step {}

/-- Class and parameters of the algorithm object at address `a`. -/
def Decl.config (D : Decl S V X α) (a : Nat) : Option (AlgCfg α) :=
  match D.algs[a]? with
  | some (k, p, i) => (D.iters[i]?).map fun it => ⟨k, it, p⟩
  | none => none

/-- What successive `next` calls on a generator must show, given the outcome of
running its algorithm: the partial results in order and then `StopIteration`; or
the exception once and then `StopIteration`. -/
def stream (r : Except PyErr (List (Result S V X α))) (i : Nat) : Out S V X α :=
  match r with
  | .ok rs => match rs[i]? with
    | some x => .result x
    | none => .stop
  | .error e => if i = 0 then .raised e else .stop

/-- The observations of the `next` calls on generator `g`. -/
def nexts (g : Nat) (tr : List (Op S V X α × Out S V X α)) : List (Out S V X α) :=
  tr.filterMap fun p => match p.1 with
    | .next g' => if g' = g then some p.2 else none
    | _ => none

end TD.Spec
