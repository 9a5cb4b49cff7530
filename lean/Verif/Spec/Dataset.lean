/-!
# What a list of (source, variable, value) triples means

Specification used by the dataset properties; independent of the model.
-/

namespace TD.Spec

variable {β κ S V X : Type} [DecidableEq κ] [DecidableEq S] [DecidableEq V] [DecidableEq X]

/-- The items that are the first of the list with their key, in order. -/
def firstsBy (key : β → κ) : List β → List β
  | [] => []
  | x :: xs => x :: (firstsBy key xs).filter (fun y => key y ≠ key x)

/-- Distinct members in order of first appearance. -/
def firsts (l : List κ) : List κ := firstsBy id l

/-- The triples that are the first ones for their (source, variable) pair: the
claims a dataset records. -/
def recorded (l : List (S × V × X)) : List (S × V × X) :=
  firstsBy (fun t => (t.1, t.2.1)) l

/-- Source labels in order of first appearance. -/
def sources (l : List (S × V × X)) : List S := firsts (l.map fun t => t.1)
/-- Variable labels in order of first appearance. -/
def vars (l : List (S × V × X)) : List V := firsts (l.map fun t => t.2.1)
/-- Value labels in order of first appearance. -/
def vals (l : List (S × V × X)) : List X := firsts (l.map fun t => t.2.2)
/-- Recorded claims (variable, value) in order of first appearance. -/
def claims (l : List (S × V × X)) : List (V × X) := firsts ((recorded l).map fun t => t.2)

/-- No source occurs twice with the same variable. -/
def NoRepeats (l : List (S × V × X)) : Prop := (l.map fun t => (t.1, t.2.1)).Nodup

instance (l : List (S × V × X)) : Decidable (NoRepeats l) := by
  unfold NoRepeats; infer_instance

end TD.Spec
