import Verif.Model.Argparse
/-!
# Reading a command line

Which options and values a list of words stands for, without reference to how it is parsed.
-/

namespace TD.Spec
variable {κ : Type}

/-- `n` is a name of the option `o`. -/
def Named (T : List (Opt κ)) (n : Text) (o : Opt κ) : Prop := o ∈ T ∧ n ∈ o.names

/-- A table of options makes sense: names are `-c` or `--name` without `=`, and no name is used
twice. -/
structure TableOk (T : List (Opt κ)) : Prop where
  shape : ∀ n o, Named T n o → (∃ c, n = ['-', c] ∧ c ≠ '-' ∧ c ≠ '=') ∨
    (∃ c r, n = '-' :: '-' :: c :: r ∧ '=' ∉ n)
  unique : (T.flatMap Opt.names).Nodup

/-- The word `n` calls the option `o`: by one of its names, or by the beginning of a long name, if
no other long name begins like that. -/
inductive Calls (T : List (Opt κ)) : Text → Opt κ → Prop
  | name (n : Text) (o : Opt κ) (h : Named T n o) : Calls T n o
  | abbreviation (n m : Text) (o : Opt κ) (hn : ['-', '-'] <+: n) (h : Named T m o) (hm : n <+: m)
      (only : ∀ m' o', Named T m' o' → n <+: m' → m' = m) : Calls T n o

/-- The number of values is right for the option. -/
def Takes : Nargs → List Text → Prop
  | .zero, vs => vs = []
  | .one, vs => ∃ v, vs = [v]
  | .many, vs => vs ≠ []

/-- The word `w`, followed by the values `vs`, stands for these options and values. -/
inductive Occurs (T : List (Opt κ)) : Text → List Text → List (κ × List Text) → Prop
  /-- `-o v ...`, `--option v ...` -/
  | apart (w : Text) (o : Opt κ) (vs : List Text) (h : Calls T w o) (ht : Takes o.nargs vs) :
      Occurs T w vs [(o.key, vs)]
  /-- `-o=v`, `--option=v` -/
  | joined (n : Text) (o : Opt κ) (v : Text) (h : Calls T n o) (hz : o.nargs ≠ .zero) :
      Occurs T (n ++ '=' :: v) [] [(o.key, [v])]
  /-- `-ov` -/
  | attached (c d : Char) (o : Opt κ) (v : Text) (h : Named T ['-', c] o) (hz : o.nargs ≠ .zero) (hd : d ≠ '=') :
      Occurs T ('-' :: c :: d :: v) [] [(o.key, [d :: v])]
  /-- a flag `-f` written together with other options: `-fo ...` -/
  | flag (c d : Char) (o : Opt κ) (r : Text) (vs : List Text) (acts : List (κ × List Text)) (h : Named T ['-', c] o)
      (hz : o.nargs = .zero) (hd : d ≠ '=') (hd' : d ≠ '-') (rest : Occurs T ('-' :: d :: r) vs acts) :
      Occurs T ('-' :: c :: d :: r) vs ((o.key, []) :: acts)

/-- The word looks like an option of the table (perhaps an ambiguous one). -/
def OptionLike (T : List (Opt κ)) (w : Text) : Prop :=
  (∃ n o v, Named T n o ∧ (w = n ∨ w = n ++ '=' :: v)) ∨
  (∃ n m o v, ['-', '-'] <+: n ∧ Named T m o ∧ n <+: m ∧ (w = n ∨ w = n ++ '=' :: v)) ∨
  (∃ c o, Named T ['-', c] o ∧ ['-', c] <+: w)

/-- A negative number: digits after the minus sign, with at most one point, at least one digit
after it (perhaps a newline at the end). -/
def Negative (digit : Char → Option Nat) (w : Text) : Prop :=
  ∃ ds nl, (nl = [] ∨ nl = ['\n']) ∧ ds ≠ [] ∧ (∀ c ∈ ds, (digit c).isSome) ∧
    (w = '-' :: (ds ++ nl) ∨ ∃ ip, (∀ c ∈ ip, (digit c).isSome) ∧ w = '-' :: (ip ++ '.' :: (ds ++ nl)))

/-- The word can be a value: it does not begin with `-`, or it is `-` itself, a negative number
or a text with a space that does not look like an option. -/
def Value (digit : Char → Option Nat) (T : List (Opt κ)) (w : Text) : Prop :=
  w.head? ≠ some '-' ∨ w = ['-'] ∨
  (w ≠ ['-', '-'] ∧ ¬ OptionLike T w ∧ (Negative digit w ∨ ' ' ∈ w))

/-- The words stand for these options and values, in this order. -/
inductive Line (digit : Char → Option Nat) (T : List (Opt κ)) : List Text → List (κ × List Text) → Prop
  | nil : Line digit T [] []
  | cons (w : Text) (vs ws : List Text) (acts acts' : List (κ × List Text)) (h : Occurs T w vs acts)
      (hv : ∀ v ∈ vs, Value digit T v) (hw : w ≠ ['-', '-']) (rest : Line digit T ws acts') :
      Line digit T (w :: (vs ++ ws)) (acts ++ acts')

end TD.Spec
