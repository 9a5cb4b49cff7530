import Verif.Spec.Rounding
/-!
# Ranges of scores that may be NaN
-/

namespace TD.Spec
variable {S V X : Type} [DecidableEq S] [DecidableEq V] [DecidableEq X] {R : Rounding}

/-- NaN, or a finite number in `[0, 1]`. -/
def UnitOrNan (x : FP R) : Prop := x = FP.nan ∨ ∃ y, x = FP.fin y ∧ 0 ≤ y ∧ y ≤ 1

/-- NaN, or not negative (possibly infinite). -/
def NonnegOrNan (x : FP R) : Prop := x = FP.nan ∨ 0 ≤ x.val

/-- All trust scores satisfy `P`, all belief scores `Q`. -/
def ScoresAre (r : Result S V X (FP R)) (P Q : FP R → Prop) : Prop :=
  (∀ s x, r.trust.get? s = some x → P x) ∧
  (∀ v x b, (r.belief.get? v).bind (fun d => d.get? x) = some b → Q b)

/-- `n` numbers are added one after the other (numpy does so for fewer than eight numbers). -/
def AddsInTurn (R : Rounding) (n : Nat) : Prop := R.order.sum n = SumTree.seq (n - 1)

/-- What is known of the scores of an algorithm after at least one iteration, however its
floating point operations are rounded and in whatever order numbers are added; `n` is the number
of sources. -/
def RangeOf (n : Nat) (k : Kind (FP R)) (r : Result S V X (FP R)) : Prop :=
  match k with
  | .sums | .averageLog | .investment _ | .pooledInvestment _ => ScoresAre r UnitOrNan UnitOrNan
  | .truthFinder _ _ _ => ScoresAre r NonnegOrNan UnitOrNan
  | .crh eps => NonnegOrNan eps → ScoresAre r NonnegOrNan NonnegOrNan ∧
      (AddsInTurn R n → ScoresAre r NonnegOrNan UnitOrNan)
  | .unboundedSums => ScoresAre r NonnegOrNan NonnegOrNan

end TD.Spec
