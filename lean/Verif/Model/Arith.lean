import Verif.Model.Py
/-!
# Arithmetic, vectors and sparse matrices

All numeric code of the library is modelled over an abstract number type `α`
with the operations of `Arith` and *no laws*.  A theorem proved for every
`Arith α` therefore holds for IEEE doubles exactly as numpy/scipy compute with
them.  Numeric theorems use the instances of `Verif/Model/Float.lean`
(extended reals with NaN and rounding).
-/

namespace TD

/-- The numeric operations the code uses (numpy float64 / Python float). -/
class Arith (α : Type) where
  /-- conversion of a Python int -/
  ofNat : Nat → α
  /-- a literal `num/den` such as `0.5` or `1e-5` -/
  lit : Int → Nat → α
  add : α → α → α
  sub : α → α → α
  mul : α → α → α
  div : α → α → α
  neg : α → α
  abs : α → α
  log : α → α
  exp : α → α
  sqrt : α → α
  pow : α → α → α
  /-- `x < y` (false if either is NaN) -/
  lt : α → α → Bool
  /-- `x == y` (false if either is NaN) -/
  eq : α → α → Bool
  /-- numpy's `np.sum` reduction (pairwise in numpy; unspecified here) -/
  sum : List α → α
  /-- numpy's `np.dot` of two vectors (BLAS; unspecified here) -/
  dot : List α → List α → α

infixl:65 " +. " => Arith.add
infixl:65 " -. " => Arith.sub
infixl:70 " *. " => Arith.mul
infixl:70 " /. " => Arith.div

section
variable {α : Type} [Arith α]

/-- `np.isnan(x)` -/
def isNan (x : α) : Bool := !(Arith.eq x x)

/-- `x <= y` -/
def Arith.le (x y : α) : Bool := Arith.lt x y || Arith.eq x y

/-- Python's builtin `max(iterable)`: keeps the first item that no later item
exceeds (comparison `item > max`); `ValueError` on an empty iterable. -/
def pyMax : List α → Except PyErr α
  | [] => .error .valueError
  | x :: xs => .ok (xs.foldl (fun m y => if Arith.lt m y then y else m) x)

/-- `np.max(v)`: as `pyMax` but propagates NaN. -/
def npMax : List α → Except PyErr α
  | [] => .error .valueError
  | x :: xs => .ok (xs.foldl (fun m y =>
      if isNan m then m else if isNan y then y else if Arith.lt m y then y else m) x)

/-- Dense numpy vector. -/
abbrev Vec (α : Type) := List α

/-- `v[j]`; all indices used by the modelled code are in range. -/
def Vec.at (v : Vec α) (j : Nat) : α := v.getD j (Arith.ofNat 0)

/-- `np.ones((n,))` -/
def ones (n : Nat) : Vec α := List.replicate n (Arith.ofNat 1)

/-- `np.zeros((n,))` -/
def zeros (n : Nat) : Vec α := List.replicate n (Arith.ofNat 0)

/-- Entry-wise binary operation of two vectors of equal length. -/
def vzip (f : α → α → α) (v w : Vec α) : Vec α := List.zipWith f v w

/-- scipy sparse matrix in CSR form: for each row the stored `(column, value)`
pairs in increasing column order. -/
structure Mat (α : Type) where
  nrows : Nat
  ncols : Nat
  rows : List (List (Nat × α))

namespace Mat

/-- `scipy.sparse.csr_matrix((data, (row, col)), shape)`: stored entries sorted
by column within each row, duplicates summed. -/
def csr (entries : List (Nat × Nat × α)) (nr nc : Nat) : Mat α where
  nrows := nr
  ncols := nc
  rows := (List.range nr).map fun i => (List.range nc).filterMap fun j =>
    match entries.filterMap (fun e => if e.1 = i ∧ e.2.1 = j then some e.2.2 else none) with
    | [] => none
    | v :: vs => some (j, vs.foldl Arith.add v)

/-- Entry `(i, j)` (0 if not stored). -/
def get (M : Mat α) (i j : Nat) : α :=
  ((M.rows.getD i []).lookup j).getD (Arith.ofNat 0)

/-- `M.T`: rows of the transpose, stored entries by increasing row index of `M`. -/
def T (M : Mat α) : Mat α where
  nrows := M.ncols
  ncols := M.nrows
  rows := (List.range M.ncols).map fun j =>
    (enum M.rows).filterMap fun p => (p.2.lookup j).map fun v => (p.1, v)

/-- `M @ x` for a dense vector `x`: scipy's `csr_matvec` / `csc_matvec` sum the
stored entries of the row sequentially, starting from 0. -/
def mulVec (M : Mat α) (x : Vec α) : Vec α :=
  M.rows.map fun r => r.foldl (fun acc p => acc +. p.2 *. x.at p.1) (Arith.ofNat 0)

/-- `M.nonzero()`: the `(row, col)` pairs of the stored entries that are not 0,
in row-major order (`x != 0` is true for NaN). -/
def nonzero (M : Mat α) : List (Nat × Nat) :=
  (enum M.rows).flatMap fun p => p.2.filterMap fun e =>
    if Arith.eq e.2 (Arith.ofNat 0) then none else some (p.1, e.1)

end Mat
end
end TD
