import Verif.Model.Algorithm
/-!
A computable (nonsensical) arithmetic on integers. It only serves to exhibit
concrete datasets in the `example`s beside theorems that hold for every
`Arith α`; no property rests on it.
-/

namespace TD.Toy

/-- Integer arithmetic; `log`, `exp`, `sqrt` are placeholders. -/
instance : Arith Int where
  ofNat := fun n => (n : Int)
  lit := fun a b => a / (b : Int)
  add := (· + ·)
  sub := (· - ·)
  mul := (· * ·)
  div := (· / ·)
  neg := fun x => -x
  abs := fun x => Int.natAbs x
  log := id
  exp := id
  sqrt := id
  pow := fun x _ => x
  lt := fun x y => decide (x < y)
  eq := fun x y => decide (x = y)
  sum := fun l => l.sum
  dot := fun v w => (List.zipWith (· * ·) v w).sum

theorem one_ne_zero : Arith.eq (Arith.ofNat 1 : Int) (Arith.ofNat 0) = false := by decide

/-- Two sources that disagree about `x`, one of them also claims about `y`. -/
def triples : List (String × String × Nat) :=
  [("s", "x", 1), ("t", "x", 2), ("s", "y", 1), ("u", "x", 2)]

/-- With a repeated (source, variable) pair. -/
def repeats : List (String × String × Nat) :=
  [("s", "x", 1), ("t", "x", 2), ("s", "x", 3), ("t", "y", 3)]

end TD.Toy
