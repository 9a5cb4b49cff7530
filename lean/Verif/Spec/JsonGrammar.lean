import Verif.Model.JsonText
import Mathlib.Data.List.Defs
/-!
# The grammar of JSON (RFC 8259), and what its texts mean
-/

namespace TD.Spec
variable {α : Type}

/-- White space. -/
def Blank (t : Text) : Prop := ∀ c ∈ t, c ∈ [' ', '\t', '\n', '\r']

/-- `c` is the hexadecimal digit for `n`, in lower or upper case. -/
def HexChar (c : Char) (n : Nat) : Prop := "0123456789abcdef".toList[n]? = some c ∨ "0123456789ABCDEF".toList[n]? = some c

/-- The characters that may follow a backslash, but for `u`, and the code units they stand for. -/
def escapes : List (Char × Nat) := [('"', 34), ('\\', 92), ('/', 47), ('b', 8), ('f', 12), ('n', 10), ('r', 13), ('t', 9)]

/-- The UTF-16 code units of a character. -/
def CodeUnits (c : Char) (us : List Nat) : Prop :=
  (c.toNat < 0x10000 ∧ us = [c.toNat]) ∨
  ∃ hi lo, hi < 0x400 ∧ lo < 0x400 ∧ c.toNat = 0x10000 + hi * 0x400 + lo ∧ us = [0xd800 + hi, 0xdc00 + lo]

/-- The text stands, between quotation marks, for these UTF-16 code units. -/
inductive Quoted : Text → List Nat → Prop
  | nil : Quoted [] []
  | plain (c : Char) (us : List Nat) (t : Text) (vs : List Nat) (h1 : 32 ≤ c.toNat) (h2 : c ≠ '"') (h3 : c ≠ '\\')
      (hc : CodeUnits c us) (h : Quoted t vs) : Quoted (c :: t) (us ++ vs)
  | escape (e : Char) (u : Nat) (t : Text) (vs : List Nat) (he : (e, u) ∈ escapes) (h : Quoted t vs) :
      Quoted ('\\' :: e :: t) (u :: vs)
  | unicode (a b c d : Char) (i j k m : Nat) (t : Text) (vs : List Nat) (ha : HexChar a i) (hb : HexChar b j) (hc : HexChar c k)
      (hd : HexChar d m) (h : Quoted t vs) :
      Quoted ('\\' :: 'u' :: a :: b :: c :: d :: t) ((((i * 16 + j) * 16 + k) * 16 + m) :: vs)

/-- The text stands, between quotation marks, for the string `s`: they have the same code units. -/
def StringText (t s : Text) : Prop := ∃ us, List.Forall₂ CodeUnits s us ∧ Quoted t us.flatten

mutual
/-- The text stands for the value (no white space around it). -/
inductive ValueText (R : JsonReader α) : Text → WJson α → Prop
  | null : ValueText R "null".toList .null
  | true : ValueText R "true".toList (.bool true)
  | false : ValueText R "false".toList (.bool false)
  | number (t : Text) (x : α) (h : ∀ c ∈ t, c ∈ "0123456789+-.eE".toList) (hx : R.number t = some x) : ValueText R t (.num x)
  | word (t : Text) (x : α) (h : (t, x) ∈ R.words) : ValueText R t (.num x)
  | string (t s : Text) (h : StringText t s) : ValueText R (['"'] ++ t ++ ['"']) (.str s)
  | noItems (w : Text) (h : Blank w) : ValueText R (['['] ++ w ++ [']']) (.arr [])
  | array (t : Text) (vs : List (WJson α)) (h : ItemsText R t vs) : ValueText R (['['] ++ t ++ [']']) (.arr vs)
  | noMembers (w : Text) (h : Blank w) : ValueText R (['{'] ++ w ++ ['}']) (.obj [])
  | object (t : Text) (ms : List (Text × WJson α)) (h : MembersText R t ms) : ValueText R (['{'] ++ t ++ ['}']) (.obj ms)
/-- One or more values, with commas between them. -/
inductive ItemsText (R : JsonReader α) : Text → List (WJson α) → Prop
  | last (a t b : Text) (v : WJson α) (ha : Blank a) (h : ValueText R t v) (hb : Blank b) : ItemsText R (a ++ t ++ b) [v]
  | more (a t b : Text) (v : WJson α) (ha : Blank a) (h : ValueText R t v) (hb : Blank b) (t' : Text) (vs : List (WJson α))
      (h' : ItemsText R t' vs) : ItemsText R (a ++ t ++ b ++ [','] ++ t') (v :: vs)
/-- One or more members of an object, with commas between them. -/
inductive MembersText (R : JsonReader α) : Text → List (Text × WJson α) → Prop
  | last (a k b c t d : Text) (s : Text) (v : WJson α) (ha : Blank a) (hk : StringText k s) (hb : Blank b) (hc : Blank c)
      (h : ValueText R t v) (hd : Blank d) : MembersText R (a ++ ['"'] ++ k ++ ['"'] ++ b ++ [':'] ++ c ++ t ++ d) [(s, v)]
  | more (a k b c t d : Text) (s : Text) (v : WJson α) (ha : Blank a) (hk : StringText k s) (hb : Blank b) (hc : Blank c)
      (h : ValueText R t v) (hd : Blank d) (t' : Text) (ms : List (Text × WJson α)) (h' : MembersText R t' ms) :
      MembersText R (a ++ ['"'] ++ k ++ ['"'] ++ b ++ [':'] ++ c ++ t ++ d ++ [','] ++ t') ((s, v) :: ms)
end

/-- A JSON document: a value with white space around it. -/
def DocumentText (R : JsonReader α) (t : Text) (v : WJson α) : Prop :=
  ∃ a w b, t = a ++ w ++ b ∧ Blank a ∧ ValueText R w v ∧ Blank b

/-- A reader that has no number for the empty text and for `-`, and either no further words for numbers (`JSON.parse`) or those of
Python (`json.loads`). -/
structure Standard (R : JsonReader α) : Prop where
  empty : R.number [] = none
  sign : R.number ['-'] = none
  words : R.words = [] ∨ ∃ a b c, R.words = [("NaN".toList, a), ("Infinity".toList, b), ("-Infinity".toList, c)]

end TD.Spec
