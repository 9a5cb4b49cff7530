import Verif.Model.Algorithm
/-!
# Differences of results
-/

namespace TD.Spec
variable {S V X : Type} [DecidableEq S] [DecidableEq V] [DecidableEq X]

/-- The keys of the dictionaries of a result are unique (Python dictionaries). -/
def WellKeyed {α : Type} (r : Result S V X α) : Prop :=
  r.trust.keys.Nodup ∧ r.belief.keys.Nodup ∧ ∀ v d, r.belief.get? v = some d → d.keys.Nodup

/-- Belief in a value of a variable, if the result has one. -/
def beliefAt {α : Type} (b : Dict V (Dict X α)) (v : V) (x : X) : Option α :=
  (b.get? v).bind fun d => d.get? x

/-- Both present: the difference second minus first. -/
def minus {α : Type} [Arith α] : Option α → Option α → Option α
  | some x, some y => some (y -. x)
  | _, _ => none

end TD.Spec
