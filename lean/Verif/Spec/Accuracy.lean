import Verif.Model.Supervised
import Mathlib.Data.List.Defs
/-!
# Accuracy of a result against known true values
-/

namespace TD.Spec
variable {S V X α : Type} [DecidableEq S] [DecidableEq V] [DecidableEq X] [Arith α]

/-- The known variables for which the result has a number of values other than one. -/
def counted (r : Result S V X α) (values : Dict V X) : List (V × X) :=
  values.filter fun p => match r.belief.get? p.1 with
    | some d => d.length ≠ 1
    | none => false

/-- `chosen` selects, for each counted variable, one of the values that
`get_most_believed_values` yields. -/
def Selects (r : Result S V X α) (ps : List (V × X)) (chosen : List X) : Prop :=
  List.Forall₂ (fun p x => ∃ best, r.mostBelieved p.1 = .ok best ∧ x ∈ best) ps chosen

/-- Number of variables whose chosen value is the true one. -/
def hits (ps : List (V × X)) (chosen : List X) : Nat :=
  ((ps.zip chosen).filter fun q => q.2 = q.1.2).length

end TD.Spec
