import Verif.Spec.Csv
/-!
# What data files say
-/

namespace TD.Spec

/-- The lines of a text; every line but possibly the last ends with a newline. -/
inductive Lines : Text → List Text → Prop
  | none : Lines [] []
  | last (p : Text) (hne : p ≠ []) (h : '\n' ∉ p) : Lines p [p]
  | more (p t : Text) (ps : List Text) (h : '\n' ∉ p) (ht : Lines t ps) :
      Lines (p ++ '\n' :: t) ((p ++ ['\n']) :: ps)

/-- The records of tab separated lines, numbered from `n`: a line without tabs is
malformed, any other line is source, variable and value fields. -/
inductive Records : Nat → List Text → List (Text × Text × List Text) → List Nat → Prop
  | none (n : Nat) : Records n [] [] []
  | record (n : Nat) (line s v : Text) (val : List Text) (ls : List Text)
      (ts : List (Text × Text × List Text)) (bad : List Nat)
      (h : Separated '\t' line (s :: v :: val)) (hr : Records (n + 1) ls ts bad) :
      Records n (line :: ls) ((s, v, val) :: ts) bad
  | malformed (n : Nat) (line : Text) (ls : List Text)
      (ts : List (Text × Text × List Text)) (bad : List Nat)
      (h : '\t' ∉ line) (hr : Records (n + 1) ls ts bad) : Records n (line :: ls) ts (n :: bad)

/-- The value of an attribute field: signs, percent and dollar signs are removed, then the
whitespace around. -/
def Cleaned (field value : Text) : Prop :=
  Stripped (field.filter fun c => decide (c ∉ ['$', '%', '+', '-'])) value

/-- The name of attribute number `i` of a stock on a date. -/
def attributeName (str : Nat → Text) (symbol date : Text) (i : Nat) : Text :=
  symbol ++ '_' :: date ++ ['_', 'a', 't', 't', 'r', '_'] ++ str i

/-- The row says that attribute `name` has a value: its first fields are `start` and the
symbol, all others attributes; empty values say nothing. -/
def RowSays (str : Nat → Text) (date : Text) (start row : List Text) (name value : Text) : Prop :=
  ∃ symbol attributes i field, row = start ++ symbol :: attributes ∧
    attributes[i]? = some field ∧ Cleaned field value ∧ value ≠ [] ∧
    name = attributeName str symbol date i

end TD.Spec
