import Verif.Model.Iterator
/-!
# Calls on an iterator object
-/

namespace TD.Spec
variable {α : Type} [Arith α]

/-- A call on an iterator object. -/
inductive Call (α : Type)
  | compare (v w : Vec α)
  | reset

/-- The attributes of a new iterator object after some calls (calls of `compare` that raise included). -/
def stateAfter (c : IterCfg α) (calls : List (Call α)) : IterState α :=
  calls.foldl (fun s call => match call with
    | .compare v w => c.after s v w
    | .reset => c.reset s) {}

/-- The comparisons since the last reset, oldest first. -/
def sinceReset (calls : List (Call α)) : List (Vec α × Vec α) :=
  calls.foldl (fun ps call => match call with
    | .compare v w => ps ++ [(v, w)]
    | .reset => []) []

/-- Those that did not raise. -/
def completed (c : IterCfg α) (ps : List (Vec α × Vec α)) : List (Vec α × Vec α) :=
  ps.filter fun p => match c.compare {} p.1 p.2 with
    | .ok _ => true
    | .error _ => false

end TD.Spec
