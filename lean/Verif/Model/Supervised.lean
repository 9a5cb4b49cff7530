import Verif.Model.Matrix
import Verif.Model.Result
/-!
# `truthdiscovery/input/supervised_data.py`
-/

namespace TD

variable {S V X α : Type} [DecidableEq S] [DecidableEq V] [DecidableEq X] [Arith α]

/-- Body of the loop over the true values (supervised_data.py:43-58); the state is
`total`, `count` and the number of calls of `random.choice` so far.  `pick k n` is
the index (made smaller than `n`) chosen by the `k`-th call from a list of length
`n`. -/
def accuracyStep (pick : Nat → Nat → Nat) (r : Result S V X α) (acc : Nat × Nat × Nat)
    (p : V × X) : Except PyErr (Nat × Nat × Nat) :=
  match r.belief.get? p.1 with
  | none => .ok acc
  | some d =>
    if d.length = 1 then .ok acc
    else do
      let best ← r.mostBelieved p.1
      match best[pick acc.2.2 best.length % best.length]? with
      | none => throw .indexError
      | some chosen =>
        return (acc.1 + 1, if chosen = p.2 then acc.2.1 + 1 else acc.2.1, acc.2.2 + 1)

/-- `SupervisedData.get_accuracy` (supervised_data.py:25-63); `count / total` of
Python integers is the correctly rounded quotient. -/
def getAccuracy (values : Dict V X) (pick : Nat → Nat → Nat) (r : Result S V X α) :
    Except PyErr α := do
  if values.isEmpty then throw .valueError
  let acc ← values.foldlM (accuracyStep pick r) (0, 0, 0)
  if acc.1 = 0 then throw .valueError
  return Arith.lit acc.2.1 acc.1

/-- A `SupervisedData` object over a matrix. -/
structure SupervisedMatrix (X α : Type) where
  data : MatrixDataset X α
  values : Dict Nat X

/-- `SupervisedData.from_csv` (supervised_data.py:65-82). -/
def SupervisedMatrix.fromCsv (parse : Text → Parsed X) (text : Text) :
    Except PyErr (SupervisedMatrix X α) :=
  match csvToMasked parse text with
  | .error e => .error e
  | .ok [] => .error .indexError
  | .ok (row :: rest) =>
    let values : Dict Nat X :=
      Dict.ofPairs ((enum row).filterMap fun p => p.2.map fun v => (p.1, v))
    match MatrixDataset.mk' (α := α) (.two rest) with
    | .error e => .error e.toPy
    | .ok d => .ok { data := d, values }

end TD
