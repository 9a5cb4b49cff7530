/-!
# Python runtime notions used by the model

Dictionaries, exceptions and small list helpers shared by all model files.
Core Lean only.
-/

namespace TD

/-- The Python exceptions the modelled code can raise.  `diverge` is not a
Python exception: it is the model's "out of fuel" outcome of a `while` loop. -/
inductive PyErr
  | valueError
  | keyError
  | indexError
  | attributeError
  | typeError
  | zeroDivision
  | overflow
  | notImplemented
  /-- `ConvergenceError` (truthdiscovery/exceptions.py:1-4) -/
  | convergence
  /-- `EmptyDatasetError` (truthdiscovery/exceptions.py:14-17) -/
  | emptyDataset
  /-- `bidict.ValueDuplicationError` -/
  | valueDuplication
  | diverge
deriving DecidableEq, Repr

/-- A Python `dict`: association list in insertion order, keys unique (kept by
`set`).  Simplification: keys are a Lean type with decidable equality, i.e.
Python's `__eq__`/`__hash__` are assumed lawful on labels (so no NaN labels). -/
abbrev Dict (κ ν : Type) := List (κ × ν)

namespace Dict
variable {κ ν : Type} [DecidableEq κ]

/-- `d.get(k)` -/
def get? (d : Dict κ ν) (k : κ) : Option ν := List.lookup k d

/-- `d[k]`, raising `KeyError`. -/
def get (d : Dict κ ν) (k : κ) : Except PyErr ν :=
  match d.get? k with
  | some v => .ok v
  | none => .error .keyError

/-- `k in d` -/
def has (d : Dict κ ν) (k : κ) : Bool := (d.get? k).isSome

/-- `d[k] = v`: overwrite in place, or append. -/
def set (d : Dict κ ν) (k : κ) (v : ν) : Dict κ ν :=
  if d.has k then d.map (fun p => if p.1 = k then (p.1, v) else p)
  else d ++ [(k, v)]

/-- `d.keys()` -/
def keys (d : Dict κ ν) : List κ := d.map Prod.fst

/-- `d.values()` -/
def values (d : Dict κ ν) : List ν := d.map Prod.snd

/-- `dict(pairs)`: later pairs overwrite earlier ones. -/
def ofPairs (l : List (κ × ν)) : Dict κ ν :=
  l.foldl (fun d p => d.set p.1 p.2) []

end Dict

/-- `set.add` on a Python set represented as a duplicate-free list. -/
def setAdd {κ : Type} [DecidableEq κ] (s : List κ) (k : κ) : List κ :=
  if k ∈ s then s else s ++ [k]

/-- `enumerate(l)` -/
def enum {β : Type} (l : List β) : List (Nat × β) := l.zipIdx.map (fun p => (p.2, p.1))

end TD
