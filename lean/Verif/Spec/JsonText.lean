import Verif.Model.JsonText
/-!
# Numbers in JSON texts
-/

namespace TD.Spec
variable {α : Type}

mutual
/-- The numbers in a value. -/
def numbers : WJson α → List α
  | .null => []
  | .bool _ => []
  | .num x => [x]
  | .str _ => []
  | .arr l => numbersOfList l
  | .obj l => numbersOfFields l
/-- See `numbers`. -/
def numbersOfList : List (WJson α) → List α
  | [] => []
  | x :: xs => numbers x ++ numbersOfList xs
/-- See `numbers`. -/
def numbersOfFields : List (Text × WJson α) → List α
  | [] => []
  | (_, x) :: xs => numbers x ++ numbersOfFields xs
end

mutual
/-- The value with every string in it (also the names of members) changed by `f`. -/
def mapStrings (f : Text → Text) : WJson α → WJson α
  | .null => .null
  | .bool b => .bool b
  | .num x => .num x
  | .str t => .str (f t)
  | .arr l => .arr (mapStringsList f l)
  | .obj l => .obj (mapStringsFields f l)
/-- See `mapStrings`. -/
def mapStringsList (f : Text → Text) : List (WJson α) → List (WJson α)
  | [] => []
  | x :: xs => mapStrings f x :: mapStringsList f xs
/-- See `mapStrings`. -/
def mapStringsFields (f : Text → Text) : List (Text × WJson α) → List (Text × WJson α)
  | [] => []
  | (k, x) :: xs => (f k, mapStrings f x) :: mapStringsFields f xs
end

/-- The text written for the number `x` is a numeric literal that is read as `x`. -/
structure Literal (showNum : α → Text) (R : JsonReader α) (x : α) : Prop where
  nonempty : showNum x ≠ []
  chars : ∀ c ∈ showNum x, isNumChar c = true
  reads : R.number (showNum x) = some x

/-- The text written for `x` is none of JSON: `NaN`, `Infinity` or `-Infinity` (`float.__repr__` is not used for these). -/
structure NotANumber (showNum : α → Text) (R : JsonReader α) (x : α) : Prop where
  word : showNum x ∈ ["NaN".toList, "Infinity".toList, "-Infinity".toList]
  empty : R.number [] = none
  sign : R.number ['-'] = none

end TD.Spec
