import Verif.Model.Frontend
import Verif.Spec.Matrix
import Verif.Spec.Web
/-!
# What the form should do
-/

namespace TD.Spec
variable {X : Type}

/-- A matrix with `m` rows and `n` columns. -/
def Dims (m n : Nat) (g : Grid X) : Prop := g.length = m ∧ Rect n g

/-- The index before the deletion of `k` of what has index `i` after it. -/
def undeleted (k i : Nat) : Nat := if i < k then i else i + 1

/-- The entry read from a field: nothing for texts that are not numbers, and for zero. -/
def EntryRead (parseFloat : Text → Option X) (isZero : X → Bool) (field : Text) (entry : Option X) : Prop :=
  (entry = none ∧ (parseFloat field = none ∨ ∃ x, parseFloat field = some x ∧ isZero x = true)) ∨
  ∃ x, parseFloat field = some x ∧ isZero x = false ∧ entry = some x

/-- A matrix the user can get to from `g` by using the form. -/
inductive Edited (presets : List (Grid X)) (parseFloat : Text → Option X) (isZero : X → Bool) (g : Grid X) :
    Grid X → Prop
  | start : Edited presets parseFloat isZero g g
  | step (g1 g2 : Grid X) (e : Edit X) (h : Edited presets parseFloat isZero g g1)
      (hs : e.shown presets g1) (he : e.apply parseFloat isZero g1 = .ok g2) :
      Edited presets parseFloat isZero g g2

/-- Adding and deleting rows and columns, and typing. -/
inductive ByHand : Edit X → Prop
  | addSource : ByHand .addSource
  | addVariable : ByHand .addVariable
  | deleteSource (i : Nat) : ByHand (.deleteSource i)
  | deleteVariable (j : Nat) : ByHand (.deleteVariable j)
  | setCell (i j : Nat) (v : Option X) : ByHand (.setCell i j v)

/-- A matrix the user can get to from `g` without loading anything. -/
inductive Typed (parseFloat : Text → Option X) (isZero : X → Bool) (g : Grid X) : Grid X → Prop
  | start : Typed parseFloat isZero g g
  | step (g1 g2 : Grid X) (e : Edit X) (h : Typed parseFloat isZero g g1) (hand : ByHand e)
      (hs : e.shown [] g1) (he : e.apply parseFloat isZero g1 = .ok g2) : Typed parseFloat isZero g g2

section
variable {R : Rounding}

/-- How the browser and the server print and read numbers: decimal integers, fixed point
numbers without newlines, values that the server can read back. -/
structure FormOk {X : Type} (env : Env X R) (strInt : Int → Text) (toFixed : FP R → Text) (strVal : X → Text) :
    Prop where
  numeral : ∀ n : Nat, Numeral env.digit (strInt n) n
  negative : ∀ n : Nat, 0 < n → strInt (-n) = '-' :: strInt n
  hundred : strInt 100 = ['1', '0', '0']
  digits : ∀ c d, env.digit c = some d → isBlank c = false ∧ c ≠ '-'
  fixedPoint : ∀ x, toFixed x ≠ [] ∧ '\n' ∉ toFixed x
  values : RoundTrips strVal env.parseValue
  noUnderscore : ∀ v, '_' ∉ strVal v

/-- The iterator that the settings of the form stand for. -/
inductive SettingsMean {X : Type} (env : Env X R) (toFixed : FP R → Text) : IterSettings (FP R) → IterCfg (FP R) → Prop
  | fixed (k : Nat) (measure : Text) (th : Option (FP R)) (h : k ≤ 200) :
      SettingsMean env toFixed ⟨"fixed".toList, some k, measure, th⟩ (.fixed k)
  | convergence (m : Measure) (limit : Option Int) (x y : FP R) (h : '-' ∉ toFixed x)
      (hx : env.parseFloat (toFixed x) = some y) :
      SettingsMean env toFixed ⟨"convergence".toList, limit, (measureName m).toList, some x⟩ (.conv (some m) y 100)

end
end TD.Spec
