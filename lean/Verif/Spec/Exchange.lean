import Verif.Spec.Page
import Verif.Spec.Matrix
/-!
# The tables the user should see for a matrix
-/

namespace TD.Spec

/-- The rows of the table of sources and the blocks of the table of claims show the result `r` for the matrix `g`: every row of the
matrix with an entry once, with its trust; every column with an entry once, and there every value once, with its belief; the largest
scores in bold. -/
structure TablesShow {X : Type} [DecidableEq X] (env : Env X .exact) (g : Grid X) (r : Result Nat Nat X Ex) (rows : List ResultRow)
    (blocks : List (Text × Option ℝ × List ResultRow)) : Prop where
  sources_once : (rows.map ResultRow.key).Nodup
  sources : ∀ t x, (∃ row ∈ rows, row.key = t ∧ row.score = x) ↔
    ∃ i j v, Holds g i j v ∧ t = env.strNat i ∧ r.trust.get? i = some (Ex.fin x)
  sources_bold : ∀ row ∈ rows, (row.bold = true ↔ ∀ row' ∈ rows, row'.score ≤ row.score)
  vars_once : (blocks.map Prod.fst).Nodup
  vars : ∀ t, (∃ b ∈ blocks, b.1 = t) ↔ ∃ i j v, Holds g i j v ∧ t = env.strNat j
  values_once : ∀ b ∈ blocks, (b.2.2.map ResultRow.key).Nodup
  values : ∀ b ∈ blocks, ∀ u y, (∃ row ∈ b.2.2, row.key = u ∧ row.score = y) ↔
    ∃ i j v, Holds g i j v ∧ b.1 = env.strNat j ∧ u = env.strVal v ∧ beliefAt r.belief j v = some (Ex.fin y)
  values_bold : ∀ b ∈ blocks, ∀ row ∈ b.2.2, (row.bold = true ↔ ∀ row' ∈ b.2.2, row'.score ≤ row.score)

/-- No differences are shown. -/
def NoDifferences (rows : List ResultRow) (blocks : List (Text × Option ℝ × List ResultRow)) : Prop :=
  (∀ row ∈ rows, row.difference = []) ∧ ∀ b ∈ blocks, ∀ row ∈ b.2.2, row.difference = []

end TD.Spec
