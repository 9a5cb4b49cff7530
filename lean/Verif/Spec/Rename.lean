import Verif.Model.Algorithm
/-!
# Renaming labels
-/

namespace TD.Spec
variable {S V X S' V' X' α : Type}

/-- New names for sources, variables and values; a value may get a different name for each
variable. -/
structure Renaming (S V X S' V' X' : Type) where
  source : S → S'
  var : V → V'
  val : V → X → X'
  source_inj : ∀ a b, source a = source b → a = b
  var_inj : ∀ a b, var a = var b → a = b
  val_inj : ∀ v a b, val v a = val v b → a = b

variable (ρ : Renaming S V X S' V' X')

/-- The renamed triples. -/
def Renaming.triples (l : List (S × V × X)) : List (S' × V' × X') :=
  l.map fun t => (ρ.source t.1, ρ.var t.2.1, ρ.val t.2.1 t.2.2)

/-- The renamed result: same scores in the same order, same time and iterations. -/
def Renaming.result (r : Result S V X α) : Result S' V' X' α where
  trust := r.trust.map fun p => (ρ.source p.1, p.2)
  belief := r.belief.map fun p => (ρ.var p.1, p.2.map fun q => (ρ.val p.1 q.1, q.2))
  time := r.time
  iterations := r.iterations

/-- The implication function `f'` is `f` under the new names (or there are none). -/
def Renaming.Agrees (f : Option (V → X → X → Option α)) (f' : Option (V' → X' → X' → Option α)) :
    Prop :=
  match f, f' with
  | none, none => True
  | some f, some f' => ∀ v x y, f' (ρ.var v) (ρ.val v x) (ρ.val v y) = f v x y
  | _, _ => False

/-- `r` gives the same scores to a source or claim and its image. -/
def Renaming.Respects [DecidableEq S] [DecidableEq V] [DecidableEq X] (ρ : Renaming S V X S V X) (r : Result S V X α) : Prop :=
  (∀ s, r.trust.get? (ρ.source s) = r.trust.get? s) ∧
  ∀ v x, (r.belief.get? (ρ.var v)).bind (fun d => d.get? (ρ.val v x)) =
    (r.belief.get? v).bind (fun d => d.get? x)

end TD.Spec
