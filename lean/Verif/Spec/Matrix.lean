import Verif.Spec.Csv
import Verif.Model.Matrix
/-!
# Matrices with missing entries, and printing of numbers
-/

namespace TD.Spec
variable {X : Type}

/-- Entry `(i, j)` of the matrix is present and holds `v`. -/
def Holds (g : Grid X) (i j : Nat) (v : X) : Prop :=
  ∃ row, g[i]? = some row ∧ row[j]? = some (some v)

/-- All rows have `n` entries. -/
def Rect (n : Nat) (g : Grid X) : Prop := ∀ row ∈ g, row.length = n

/-- Printing a number gives a non-empty text without commas and whitespace, and
parsing the text gives the number back (true of `str`/`float` on doubles). -/
structure RoundTrips (str : X → Text) (parse : Text → Parsed X) : Prop where
  parse_str : ∀ v, parse (str v) = .num v
  nonempty : ∀ v, str v ≠ []
  clean : ∀ v, ∀ c ∈ str v, c ≠ ',' ∧ isBlank c = false

/-- What the text of a field means as a matrix entry. -/
def FieldMeans (parse : Text → Parsed X) (field : Text) (entry : Option X) : Prop :=
  (field = [] ∧ entry = none) ∨
  (field ≠ [] ∧ ((parse field = .nan ∧ entry = none) ∨ ∃ x, parse field = .num x ∧ entry = some x))

end TD.Spec
