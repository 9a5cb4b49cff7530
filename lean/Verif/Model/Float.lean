import Verif.Model.Arith
import Mathlib.Data.EReal.Basic
import Mathlib.Analysis.SpecialFunctions.Pow.Real
import Mathlib.Analysis.SpecialFunctions.Log.Basic
import Mathlib.Analysis.SpecialFunctions.Sqrt
/-!
# Floating point numbers

`FNum` are the values of a numpy float64 (without the sign of zero): NaN, the two
infinities and finite reals.  `FP R` computes with them, rounding every finite
result with `R`.  `FP Rounding.exact` is arithmetic without rounding error (but
still with NaN and infinities: a division by zero does not go unnoticed).
-/

namespace TD

/-- Values of a float64.  Simplification: one unsigned zero. -/
inductive FNum
  | nan
  | pinf
  | ninf
  | fin (x : ℝ)

namespace FNum

/-- Numerical value; NaN is mapped to 0, but only used for non-NaN values. -/
noncomputable def toEReal : FNum → EReal
  | nan => 0
  | pinf => ⊤
  | ninf => ⊥
  | fin x => (x : EReal)

/-- Infinity with the sign of `x`. -/
noncomputable def infOf (x : ℝ) : FNum := if 0 < x then pinf else ninf

/-- `-x` -/
noncomputable def neg : FNum → FNum
  | nan => nan
  | pinf => ninf
  | ninf => pinf
  | fin x => fin (-x)

end FNum

/-- How the numbers at the positions `0, ..., n - 1` of an array are added up: which
partial sums are added to which.  numpy adds one after the other in short arrays, in eight
interleaved partial sums in longer ones, and halves arrays that are longer still; that depends
on its version and on the machine. -/
inductive SumTree
  | leaf (i : Nat)
  | node (a b : SumTree)

/-- The positions that are added up. -/
def SumTree.leaves : SumTree → List Nat
  | leaf i => [i]
  | node a b => a.leaves ++ b.leaves

/-- How a dot product is computed: products are rounded and then added, or added and rounded
in one operation (fused multiply-add). -/
inductive DotTree
  | prod (i : Nat)
  | fused (i : Nat) (a : DotTree)
  | node (a b : DotTree)

/-- The positions whose products are added up. -/
def DotTree.leaves : DotTree → List Nat
  | prod i => [i]
  | fused i a => i :: a.leaves
  | node a b => a.leaves ++ b.leaves

/-- One after the other: positions `0, ..., n`. -/
def SumTree.seq : Nat → SumTree
  | 0 => leaf 0
  | n + 1 => node (seq n) (leaf (n + 1))

/-- One after the other: positions `0, ..., n`. -/
def DotTree.seq : Nat → DotTree
  | 0 => prod 0
  | n + 1 => node (seq n) (prod (n + 1))

theorem SumTree.seq_leaves (n : Nat) : (seq n).leaves = List.range (n + 1) := by
  induction n with
  | zero => rfl
  | succ n ih => rw [seq, leaves, ih, leaves, ← List.range_succ]

theorem DotTree.seq_leaves (n : Nat) : (seq n).leaves = List.range (n + 1) := by
  induction n with
  | zero => rfl
  | succ n ih => rw [seq, leaves, ih, leaves, ← List.range_succ]

/-- What IEEE 754 leaves to the platform: the order in which the installed numpy (and its
BLAS) adds up arrays of each length, and the errors of the C library's `log`, `exp` and `pow`.
Every position of an array is used exactly once; the library functions round a value whose
relative error is at most `2 ^ -55` (an eighth of a unit in the last place; they need not round
correctly, nor be monotone).  Nothing else is assumed. -/
structure Platform where
  sum : Nat → SumTree
  sum_leaves : ∀ n, (sum (n + 1)).leaves.Perm (List.range (n + 1))
  dot : Nat → DotTree
  dot_leaves : ∀ n, (dot (n + 1)).leaves.Perm (List.range (n + 1))
  logErr : ℝ → ℝ
  logErr_le : ∀ x, |logErr x| ≤ 2⁻¹ ^ 55
  expErr : ℝ → ℝ
  expErr_le : ∀ x, |expErr x| ≤ 2⁻¹ ^ 55
  powErr : ℝ → ℝ → ℝ
  powErr_le : ∀ x y, |powErr x y| ≤ 2⁻¹ ^ 55

/-- Sums from left to right, correctly rounded functions. -/
noncomputable def Platform.seq : Platform where
  sum n := .seq (n - 1)
  sum_leaves n := .of_eq (SumTree.seq_leaves n)
  dot n := .seq (n - 1)
  dot_leaves n := .of_eq (DotTree.seq_leaves n)
  logErr _ := 0
  logErr_le _ := by rw [abs_zero]; positivity
  expErr _ := 0
  expErr_le _ := by rw [abs_zero]; positivity
  powErr _ _ := 0
  powErr_le _ _ := by rw [abs_zero]; positivity

/-- Rounding `w` gives a faithful rounding of `v`: no number `a` of the format lies strictly
between `v` and the result. -/
def FaithfulTo (rnd : ℝ → FNum) (v w : ℝ) : Prop :=
  ∀ a, rnd a = .fin a → (a ≤ v → (a : EReal) ≤ (rnd w).toEReal) ∧ (v ≤ a → (rnd w).toEReal ≤ (a : EReal))

/-- How finite results are rounded, in which order arrays are added up, and what `log`, `exp`
and `pow` compute before the result is rounded.  IEEE round-to-nearest is an instance (with
overflow to infinity), and so is not rounding at all. -/
structure Rounding where
  order : Platform
  rnd : ℝ → FNum
  notNan : ∀ x, rnd x ≠ .nan
  mono : ∀ x y, x ≤ y → (rnd x).toEReal ≤ (rnd y).toEReal
  idem : ∀ x y, rnd x = .fin y → rnd y = .fin y
  odd : ∀ x, rnd (-x) = (rnd x).neg
  zero : rnd 0 = .fin 0
  one : rnd 1 = .fin 1
  logv : ℝ → ℝ
  log_faithful : ∀ x, 0 < x → FaithfulTo rnd (Real.log x) (logv x)
  expv : ℝ → ℝ
  exp_faithful : ∀ x, FaithfulTo rnd (Real.exp x) (expv x)
  powv : ℝ → ℝ → ℝ
  pow_faithful : ∀ x y, FaithfulTo rnd (x ^ y) (powv x y)

/-- No rounding: the order of additions does not matter. -/
noncomputable def Rounding.exact : Rounding where
  order := .seq
  rnd := .fin
  notNan := by intro x h; cases h
  mono := by
    intro x y h
    simpa [FNum.toEReal] using h
  idem := by intro x y h; cases h; rfl
  odd := by intro x; rfl
  zero := rfl
  one := rfl
  logv := Real.log
  log_faithful _ _ _ _ := ⟨fun h => EReal.coe_le_coe_iff.2 h, fun h => EReal.coe_le_coe_iff.2 h⟩
  expv := Real.exp
  exp_faithful _ _ _ := ⟨fun h => EReal.coe_le_coe_iff.2 h, fun h => EReal.coe_le_coe_iff.2 h⟩
  powv x y := x ^ y
  pow_faithful _ _ _ _ := ⟨fun h => EReal.coe_le_coe_iff.2 h, fun h => EReal.coe_le_coe_iff.2 h⟩

/-- Floating point numbers with rounding `R`. -/
def FP (_ : Rounding) : Type := FNum

/-- Numerical value of a float that is not NaN. -/
noncomputable def FP.val {R : Rounding} (x : FP R) : EReal := FNum.toEReal x

/-- The finite float `x`. -/
def FP.fin {R : Rounding} (x : ℝ) : FP R := FNum.fin x

/-- NaN. -/
def FP.nan {R : Rounding} : FP R := FNum.nan

/-- Exact arithmetic with NaN and infinities. -/
abbrev Ex : Type := FP .exact

/-- The finite number `x` of exact arithmetic. -/
def Ex.fin (x : ℝ) : Ex := FNum.fin x

/-- NaN of exact arithmetic. -/
def Ex.nan : Ex := FNum.nan

namespace FNum
open Classical

/-- IEEE addition. -/
noncomputable def add (R : Rounding) : FNum → FNum → FNum
  | nan, _ => nan
  | _, nan => nan
  | pinf, ninf => nan
  | ninf, pinf => nan
  | pinf, _ => pinf
  | _, pinf => pinf
  | ninf, _ => ninf
  | _, ninf => ninf
  | fin x, fin y => R.rnd (x + y)

/-- IEEE multiplication. -/
noncomputable def mul (R : Rounding) : FNum → FNum → FNum
  | nan, _ => nan
  | _, nan => nan
  | pinf, pinf => pinf
  | ninf, ninf => pinf
  | pinf, ninf => ninf
  | ninf, pinf => ninf
  | pinf, fin y => if y = 0 then nan else infOf y
  | ninf, fin y => if y = 0 then nan else infOf (-y)
  | fin x, pinf => if x = 0 then nan else infOf x
  | fin x, ninf => if x = 0 then nan else infOf (-x)
  | fin x, fin y => R.rnd (x * y)

/-- IEEE division as numpy does it (no exception); division by zero gives an
infinity with the sign of the numerator, `0/0` NaN. -/
noncomputable def div (R : Rounding) : FNum → FNum → FNum
  | nan, _ => nan
  | _, nan => nan
  | pinf, pinf => nan
  | pinf, ninf => nan
  | ninf, pinf => nan
  | ninf, ninf => nan
  | pinf, fin y => if y < 0 then ninf else pinf
  | ninf, fin y => if y < 0 then pinf else ninf
  | fin _, pinf => fin 0
  | fin _, ninf => fin 0
  | fin x, fin y => if y = 0 then (if x = 0 then nan else infOf x) else R.rnd (x / y)

/-- `np.log` -/
noncomputable def log (R : Rounding) : FNum → FNum
  | nan => nan
  | pinf => pinf
  | ninf => nan
  | fin x => if x < 0 then nan else if x = 0 then ninf else R.rnd (R.logv x)

/-- `np.exp` -/
noncomputable def exp (R : Rounding) : FNum → FNum
  | nan => nan
  | pinf => pinf
  | ninf => fin 0
  | fin x => R.rnd (R.expv x)

/-- `np.sqrt` -/
noncomputable def sqrt (R : Rounding) : FNum → FNum
  | nan => nan
  | pinf => pinf
  | ninf => nan
  | fin x => if x < 0 then nan else R.rnd (Real.sqrt x)

/-- `x ** y` for finite `x`, `y` (C `pow`). -/
noncomputable def powFin (R : Rounding) (x y : ℝ) : FNum :=
  if 0 < x then R.rnd (R.powv x y)
  else if y = 0 then fin 1
  else if x = 0 then (if 0 < y then fin 0 else pinf)
  else if ∃ n : ℤ, y = n then R.rnd (R.powv x y) else nan

/-- `x ** y` (C `pow`); simplification: with base `-inf` or a NaN base the sign
conventions for odd integer exponents are not modelled (result NaN). -/
noncomputable def pow (R : Rounding) : FNum → FNum → FNum
  | fin x, fin y => powFin R x y
  | pinf, fin y => if 0 < y then pinf else if y = 0 then fin 1 else fin 0
  | fin x, pinf => if |x| = 1 then fin 1 else if |x| < 1 then fin 0 else pinf
  | fin x, ninf => if |x| = 1 then fin 1 else if |x| < 1 then pinf else fin 0
  | pinf, pinf => pinf
  | pinf, ninf => fin 0
  | fin x, nan => if x = 1 then fin 1 else nan
  | _, fin y => if y = 0 then fin 1 else nan
  | _, _ => nan

/-- `|x|` -/
noncomputable def abs : FNum → FNum
  | nan => nan
  | pinf => pinf
  | ninf => pinf
  | fin x => fin |x|

/-- `x < y` -/
noncomputable def lt : FNum → FNum → Bool
  | nan, _ => false
  | _, nan => false
  | x, y => decide (x.toEReal < y.toEReal)

/-- `x == y` -/
noncomputable def eq : FNum → FNum → Bool
  | nan, _ => false
  | _, nan => false
  | x, y => decide (x.toEReal = y.toEReal)

end FNum

/-- The sum in the order given by the tree (every partial sum starts from 0). -/
noncomputable def SumTree.eval (R : Rounding) (v : List FNum) : SumTree → FNum
  | leaf i => FNum.add R (R.rnd 0) (v.getD i (.fin 0))
  | node a b => FNum.add R (a.eval R v) (b.eval R v)

/-- `x * y + z`, rounded once. -/
noncomputable def FNum.fma (R : Rounding) (x y z : FNum) : FNum := FNum.add R (FNum.mul .exact x y) z

/-- The dot product in the order given by the tree. -/
noncomputable def DotTree.eval (R : Rounding) (z : List (FNum × FNum)) : DotTree → FNum
  | prod i => FNum.mul R (z.getD i (.fin 0, .fin 0)).1 (z.getD i (.fin 0, .fin 0)).2
  | fused i a => FNum.fma R (z.getD i (.fin 0, .fin 0)).1 (z.getD i (.fin 0, .fin 0)).2 (a.eval R z)
  | node a b => FNum.add R (a.eval R z) (b.eval R z)

/-- `np.sum` -/
noncomputable def FNum.sum (R : Rounding) (v : List FNum) : FNum :=
  if v.isEmpty then R.rnd 0 else (R.order.sum v.length).eval R v

/-- `np.dot` of two vectors. -/
noncomputable def FNum.dot (R : Rounding) (z : List (FNum × FNum)) : FNum :=
  if z.isEmpty then R.rnd 0 else (R.order.dot z.length).eval R z

/-- Arithmetic of float64 with rounding `R`.  `np.sum` and `np.dot` add in the order of
`R`; simplification: the order depends only on the length of the arrays. -/
noncomputable instance (R : Rounding) : Arith (FP R) where
  ofNat n := R.rnd n
  lit a b := R.rnd ((a : ℝ) / (b : ℝ))
  add := FNum.add R
  sub x y := FNum.add R x (FNum.neg y)
  mul := FNum.mul R
  div := FNum.div R
  neg := FNum.neg
  abs := FNum.abs
  log := FNum.log R
  exp := FNum.exp R
  sqrt := FNum.sqrt R
  pow := FNum.pow R
  lt := FNum.lt
  eq := FNum.eq
  sum v := FNum.sum R v
  dot v w := FNum.dot R (List.zip v w)

end TD
