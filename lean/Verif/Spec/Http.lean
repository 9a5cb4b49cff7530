import Verif.Model.Http
import Mathlib.Data.List.Defs
/-!
# Queries: the ways to write parameters into an address
-/

namespace TD.Spec

/-- A hexadecimal digit, in upper or lower case, and its value. -/
def HexDigit (c : Char) (n : Nat) : Prop :=
  "0123456789abcdef".toList[n]? = some c ∨ "0123456789ABCDEF".toList[n]? = some c

/-- `%xy` for a byte. -/
def EscapesByte (b : Nat) (e : Text) : Prop := ∃ x y m n, HexDigit x m ∧ HexDigit y n ∧ b = 16 * m + n ∧ e = ['%', x, y]

/-- The ways to write a character: a printable ASCII character (but `%`, `&`, `+`, `=`, `#`) as it is, a space as `+`, and any
character as the escapes of its bytes in UTF-8. -/
inductive WritesChar : Char → Text → Prop
  | plain (c : Char) : 0x21 ≤ c.toNat → c.toNat ≤ 0x7e → c ∉ ['%', '&', '+', '=', '#'] → WritesChar c [c]
  | plus : WritesChar ' ' ['+']
  | escaped (c : Char) (es : List Text) :
      List.Forall₂ EscapesByte ((String.utf8EncodeChar c).map UInt8.toNat) es → WritesChar c es.flatten

/-- `q` is a way to write the text `t`. -/
def Writes (t q : Text) : Prop := ∃ parts, List.Forall₂ WritesChar t parts ∧ q = parts.flatten

/-- `q` is a way to write `name=value` -/
def WritesPair (p : Text × Text) (q : Text) : Prop := ∃ k v, Writes p.1 k ∧ Writes p.2 v ∧ q = k ++ ['='] ++ v

/-- `q` is a way to write the parameters, in this order, with `&` between them. -/
inductive WritesQuery : List (Text × Text) → Text → Prop
  | nil : WritesQuery [] []
  | one {p : Text × Text} {q : Text} : WritesPair p q → WritesQuery [p] q
  | cons {p p' : Text × Text} {ps : List (Text × Text)} {q qs : Text} :
      WritesPair p q → WritesQuery (p' :: ps) qs → WritesQuery (p :: p' :: ps) (q ++ ['&'] ++ qs)

/-- The values of the parameter, in order. -/
def valuesOf (name : String) (ps : List (Text × Text)) : List Text :=
  ps.filterMap fun p => if p.1 = name.toList then some p.2 else none

/-- What the parameters of a request say: all values of `algorithm`, and the first value of `matrix`, `parameters` and
`previous_results`. -/
def Says (ps : List (Text × Text)) (req : Request) : Prop :=
  req.algorithm = valuesOf "algorithm" ps ∧ req.csv = (valuesOf "matrix" ps).head? ∧
    req.parameters = (valuesOf "parameters" ps).head? ∧ req.previousResults = (valuesOf "previous_results" ps).head?

/-- The path of a request. -/
def pathOf (r : HttpRequest) : Text := r.target.takeWhile (· ≠ '?')

/-- `GET` or `HEAD` -/
def Gets (r : HttpRequest) : Prop := r.method = "GET".toList ∨ r.method = "HEAD".toList

end TD.Spec
