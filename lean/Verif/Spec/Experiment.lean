import Verif.Model.Experiment
import Verif.Model.Float
/-!
# Vocabulary for the printed distances (C84)
-/

namespace TD.Spec
variable {S V X α : Type}

/-- The text that has one line `k,x` for every number `x` of the list, where `k` counts the lines from
`first` on. -/
def numberedLines (count : Nat → Text) (number : α → Text) (first : Nat) : List α → Text
  | [] => []
  | x :: xs => count first ++ ',' :: number x ++ '\n' :: numberedLines count number (first + 1) xs

/-- Numbers that satisfy `M` are written on one line, without comma, and read back as they were. -/
structure ReadsBack (M : α → Prop) (p : Printer α) : Prop where
  count_plain : ∀ k, ',' ∉ p.count k ∧ '\n' ∉ p.count k
  number_plain : ∀ x, M x → ',' ∉ p.number x ∧ '\n' ∉ p.number x
  float : ∀ x, M x → p.float (p.number x) = .ok x

/-- The floating point numbers: NaN, the infinities, and the reals that need no rounding. -/
def IsFloat (R : Rounding) (x : FP R) : Prop :=
  x = FNum.nan ∨ x = FNum.pinf ∨ x = FNum.ninf ∨ ∃ y : ℝ, x = FNum.fin y ∧ R.rnd y = FNum.fin y

/-- `x` is the distance between the trust scores of the iterations `j` and `j + 1`, wherever `run_iter` of
this algorithm (with any iterator, fuel and clock) returns both of them as successive results.  The distance
is taken in one of the two orders of the arguments. -/
def DistanceOfIterations [DecidableEq S] [DecidableEq V] [DecidableEq X] [Arith α] (ms : Option Measure)
    (c : AlgCfg α) (d : Dataset S V X α) (j : Nat) (x : α) : Prop :=
  ∀ (it : IterCfg α) (fuel : Nat) (clock : Nat → α) (st : IterState α) (rs : List (Result S V X α)),
    ({ c with iterator := it } : AlgCfg α).runIter d fuel clock st = .ok rs →
    ∀ (k : Nat) (r r' : Result S V X α), rs[k]? = some r → rs[k + 1]? = some r' →
      r'.iterations = some (j + 1) →
      getDistance ms (r.trust.map Prod.snd) (r'.trust.map Prod.snd) = .ok x ∨
      getDistance ms (r'.trust.map Prod.snd) (r.trust.map Prod.snd) = .ok x

end TD.Spec
