import Verif.Model.Text
import Verif.Model.Dataset
/-!
# `truthdiscovery/input/file_helpers.py` and its subclasses in
`truthdiscovery/examples/real-world-datasets`

Files are read completely; opening the file is assumed to succeed.
-/

namespace TD

/-- What an exhausted generator yielded, and the exception it ended with, if any. -/
structure Generated (β : Type) where
  items : List β
  failure : Option PyErr

variable {β γ S V X α : Type} [DecidableEq S] [DecidableEq V] [DecidableEq X] [Arith α]

/-- A generator whose body is `for x in l: yield from f(x)`, where `f` raises before it
yields or not at all. -/
def generate (f : β → Except PyErr (List γ)) : List β → Generated γ
  | [] => ⟨[], none⟩
  | b :: bs => match f b with
    | .error e => ⟨[], some e⟩
    | .ok ys => ⟨ys ++ (generate f bs).items, (generate f bs).failure⟩

/-- `FileDataset.__init__` (file_helpers.py:10-15): the constructor of `Dataset` consumes
the tuples while `get_tuples` reads the file, so a repeated pair in the tuples before the
failure is reported first. -/
def fileDataset (tuples : Generated (S × V × X)) (allowMultiple : Bool := false)
    (f : Option (V → X → X → Option α) := none) :
    Except (DatasetErr S V) (Dataset S V X α) :=
  match tuples.failure with
  | none => Dataset.mk' tuples.items allowMultiple f
  | some e => match Build.run allowMultiple tuples.items with
    | .error e' => .error e'
    | .ok _ => .error (.py e)

/-- The values given to `SupervisedData` by `FileSupervisedData.__init__`
(file_helpers.py:32-40). -/
def fileValues (pairs : Generated (V × X)) : Except PyErr (Dict V X) :=
  match pairs.failure with
  | none => .ok (Dict.ofPairs pairs.items)
  | some e => .error e

/-- Iteration over a text file: the lines with their newline characters. -/
def fileLines : Text → List Text
  | [] => []
  | c :: cs =>
    if c = '\n' then ['\n'] :: fileLines cs
    else match fileLines cs with
      | [] => [[c]]
      | p :: ps => (c :: p) :: ps

/-- One line of `TsvDataset.get_tuples` (tsv_dataset.py:19-26); `none` is a malformed
line. -/
def tsvLine (line : Text) : Option (Text × Text × List Text) :=
  match split '\t' line with
  | source :: var :: val => some (source, var, val)
  | _ => none

/-- `TsvDataset.get_tuples` (tsv_dataset.py:17-26): the tuples, and the line numbers of the
messages printed. -/
def tsvTuples (lines : List Text) : List (Text × Text × List Text) × List Nat :=
  (lines.filterMap tsvLine,
   (enum lines).filterMap fun p => if (tsvLine p.2).isNone then some p.1 else none)

/-- `TsvDataset.__init__` (tsv_dataset.py:14-15) on a file with this content. -/
def tsvDataset (text : Text) (f : Option (Text → List Text → List Text → Option α) := none) :
    Except (DatasetErr Text Text) (Dataset Text Text (List Text) α) :=
  fileDataset ⟨(tsvTuples (fileLines text)).1, none⟩ true f

/-- `StockBase.get_variable_name` (stock_dataset.py:28-29); `str` prints an integer. -/
def stockName (str : Nat → Text) (symbol date : Text) (i : Nat) : Text :=
  symbol ++ "_".toList ++ date ++ "_attr_".toList ++ str i

/-- `StockBase.clean_value` (stock_dataset.py:31-35). -/
def cleanValue (value : Text) : Text :=
  strip ("$%+-".toList.foldl (fun v c => v.filter (· ≠ c)) value)

/-- `StockBase.get_var_vals` (stock_dataset.py:37-47). -/
def stockVarVals (str : Nat → Text) (row : List Text) (date : Text) :
    Except PyErr (List (Text × Text)) :=
  match row with
  | [] => .error .valueError
  | symbol :: attributes => .ok <| (enum attributes).filterMap fun p =>
      let val := cleanValue p.2
      if val.isEmpty then none else some (stockName str symbol date p.1, val)

/-- One row of `StockDataset.get_tuples` (stock_dataset.py:53-55). -/
def stockTuplesRow (str : Nat → Text) (row : List Text) : Except PyErr (List (Text × Text × Text)) :=
  match row with
  | date :: source :: rest => do
    let vv ← stockVarVals str rest date
    return vv.map fun p => (source, p.1, p.2)
  | _ => .error .valueError

/-- `StockDataset.get_tuples` (stock_dataset.py:50-55); `rows` are the rows of the csv
reader. -/
def stockTuples (str : Nat → Text) (rows : List (List Text)) : Generated (Text × Text × Text) :=
  generate (stockTuplesRow str) rows

/-- One row of `SupervisedStockData.get_pairs` (stock_dataset.py:61-62). -/
def stockPairsRow (str : Nat → Text) (row : List Text) : Except PyErr (List (Text × Text)) :=
  match row with
  | date :: rest => stockVarVals str rest date
  | _ => .error .valueError

/-- `SupervisedStockData.get_pairs` (stock_dataset.py:58-62). -/
def stockPairs (str : Nat → Text) (rows : List (List Text)) : Generated (Text × Text) :=
  generate (stockPairsRow str) rows

end TD
