import Verif.Model.Text
import Mathlib.Data.List.Defs
/-!
# What a CSV text says

Relations between a text and its table of fields; no parsing algorithm.
-/

namespace TD.Spec

/-- Code points of the Unicode whitespace characters (those Python's `str.strip`
removes). -/
def whitespaceCodes : List Nat :=
  [0x09, 0x0a, 0x0b, 0x0c, 0x0d, 0x1c, 0x1d, 0x1e, 0x1f, 0x20, 0x85, 0xa0, 0x1680,
   0x2000, 0x2001, 0x2002, 0x2003, 0x2004, 0x2005, 0x2006, 0x2007, 0x2008, 0x2009, 0x200a,
   0x2028, 0x2029, 0x202f, 0x205f, 0x3000]

/-- A whitespace character. -/
def isBlank (c : Char) : Bool := decide (c.toNat ∈ whitespaceCodes)

/-- `u` is `t` without the whitespace around it. -/
def Stripped (t u : Text) : Prop :=
  (∃ a b, t = a ++ u ++ b ∧ (∀ c ∈ a, isBlank c = true) ∧ (∀ c ∈ b, isBlank c = true)) ∧
  (∀ c ∈ u.head?, isBlank c = false) ∧ (∀ c ∈ u.getLast?, isBlank c = false)

/-- `t` consists of `parts`, one or more, with `sep` between neighbours and not
inside any of them. -/
inductive Separated (sep : Char) : Text → List Text → Prop
  | one (p : Text) (h : sep ∉ p) : Separated sep p [p]
  | more (p t : Text) (ps : List Text) (h : sep ∉ p) (ht : Separated sep t ps) :
      Separated sep (p ++ sep :: t) (p :: ps)

/-- The table of fields of a CSV text: whitespace around the text is dropped, lines
end with a newline, fields with a comma, whitespace around fields is dropped. -/
def Table (text : Text) (fields : List (List Text)) : Prop :=
  ∃ u lines, Stripped text u ∧ Separated '\n' u lines ∧
    List.Forall₂ (fun line row => ∃ raw, Separated ',' line raw ∧ List.Forall₂ Stripped raw row)
      lines fields

end TD.Spec
