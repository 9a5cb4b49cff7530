import Verif.Model.Text
import Verif.Model.Dataset
/-!
# `truthdiscovery/input/matrix_dataset.py`

`X` is the type of numbers other than NaN (they are the value labels of the
dataset, compared with `==`).
-/

namespace TD

/-- Result of Python's `float(text)`: `bad` is `ValueError`. -/
inductive Parsed (X : Type)
  | bad
  | nan
  | num (x : X)
deriving DecidableEq

/-- Rows of a two dimensional masked array; `none` is a masked cell. -/
abbrev Grid (X : Type) := List (List (Option X))

/-- The `sv_mat` argument of `MatrixDataset`. -/
inductive SvMat (X : Type)
  /-- `sv_mat.ndim == 2` -/
  | two (g : Grid X)
  | otherDim

variable {X α : Type} [DecidableEq X] [Arith α]

/-- `float(val) if val else np.nan`, masked where the result is NaN
(matrix_dataset.py:30, 33). -/
def csvCell (parse : Text → Parsed X) (val : Text) : Except PyErr (Option X) :=
  if val.isEmpty then .ok none
  else match parse val with
    | .bad => .error .valueError
    | .nan => .ok none
    | .num x => .ok (some x)

/-- Body of the loop over lines (matrix_dataset.py:21-30); the state is `width`
and `entries`. -/
def csvLine (parse : Text → Parsed X) (acc : Option Nat × Grid X) (line : Text) :
    Except PyErr (Option Nat × Grid X) := do
  let row := (split ',' line).map strip
  let width ← match acc.1 with
    | none => pure row.length
    | some w => if row.length ≠ w then throw .valueError else pure w
  let entries ← row.mapM (csvCell parse)
  return (some width, acc.2 ++ [entries])

/-- `csv_to_masked_array` (matrix_dataset.py:9-33); `text` is `fileobj.read()`,
`os.linesep` is `"\n"`, `parse` is `float`. -/
def csvToMasked (parse : Text → Parsed X) (text : Text) : Except PyErr (Grid X) := do
  let r ← (split '\n' (strip text)).foldlM (csvLine parse) (none, [])
  return r.2

/-- `MatrixDataset.get_triples` (matrix_dataset.py:60-69). -/
def getTriples (g : Grid X) : List (Nat × Nat × X) :=
  (enum g).flatMap fun p => (enum p.2).filterMap fun q => q.2.map fun v => (p.1, q.1, v)

/-- A `MatrixDataset` object. -/
structure MatrixDataset (X α : Type) where
  sv : Grid X
  data : Dataset Nat Nat X α

/-- `MatrixDataset.__init__` (matrix_dataset.py:48-58). -/
def MatrixDataset.mk' (sv : SvMat X) (allowMultiple : Bool := false)
    (f : Option (Nat → X → X → Option α) := none) :
    Except (DatasetErr Nat Nat) (MatrixDataset X α) :=
  match sv with
  | .otherDim => .error (.py .valueError)
  | .two g => do
    let d ← Dataset.mk' (getTriples g) allowMultiple f
    return { sv := g, data := d }

/-- The built-in exception class of a constructor error. -/
def DatasetErr.toPy {S V : Type} : DatasetErr S V → PyErr
  | .multiple _ _ => .valueError
  | .implication => .valueError
  | .py e => e

/-- `MatrixDataset.from_csv` (matrix_dataset.py:71-83): a `ValueError` is replaced
by another `ValueError`. -/
def MatrixDataset.fromCsv (parse : Text → Parsed X) (text : Text) :
    Except PyErr (MatrixDataset X α) :=
  match csvToMasked parse text with
  | .error e => .error e
  | .ok g => match MatrixDataset.mk' (α := α) (.two g) with
    | .error e => .error e.toPy
    | .ok d => .ok d

/-- `MatrixDataset.to_csv` (matrix_dataset.py:85-92); `str` prints a number. -/
def gridToCsv (str : X → Text) (g : Grid X) : Text :=
  joinWith '\n' (g.map fun row => joinWith ',' (row.map fun v => match v with
    | none => []
    | some v => str v))

/-- See `gridToCsv`. -/
def MatrixDataset.toCsv (str : X → Text) (d : MatrixDataset X α) : Text := gridToCsv str d.sv

end TD
