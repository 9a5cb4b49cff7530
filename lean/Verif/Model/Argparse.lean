import Verif.Model.Text
/-!
# Python's `argparse`

The part of `argparse` (of Python 3.11.10) that `truthdiscovery/client/cli.py` uses: a parser
that knows only options ("optionals"), with abbreviations, `--option=value`, `-ovalue` and
clusters of flags.  The library is not part of the repository; its source is cited as
`argparse.py`.
-/

namespace TD

/-- How many values an option takes: none (`store_true`, help), one, or one and more
(`nargs="+"`). -/
inductive Nargs
  | zero | one | many
deriving DecidableEq, Repr

/-- An option: what it is for, its names, and how many values it takes (`add_argument`). -/
structure Opt (κ : Type) where
  key : κ
  names : List Text
  nargs : Nargs

/-- `_option_string_actions[name]` -/
def lookupOpt {κ : Type} (T : List (Opt κ)) (name : Text) : Option (Opt κ) :=
  T.find? fun o => o.names.any fun n => decide (n = name)

/-- A word of the command line (`_parse_known_args`, argparse.py:1934-1959): a value (`A`),
`--` (`-`), something like an option that the parser does not know, or an option (`O`), with
the value given in the same word, if any, and whether it comes after `=`. -/
inductive Tok (κ : Type)
  | arg (t : Text)
  | dashes
  | unknown (t : Text)
  | opt (o : Opt κ) (name : Text) (eq : Bool) (explicit : Option Text)

/-- `s.partition("=")`: `none` if there is no `=`. -/
def partitionEq : Text → Option (Text × Text)
  | [] => none
  | c :: r => if c = '=' then some ([], r) else (partitionEq r).map fun p => (c :: p.1, p.2)

/-- Without the last character if that is a newline (`$` matches before it). -/
def chomp (t : Text) : Text := if t.getLast? = some '\n' then t.dropLast else t

/-- `^-\d+$|^-\d*\.\d+$` (argparse.py:1386 `_negative_number_matcher`). -/
def negativeNumber (digit : Char → Option Nat) (t : Text) : Bool :=
  match t with
  | '-' :: r =>
    let all := fun (u : Text) => u.all fun c => (digit c).isSome
    let body := fun (r : Text) =>
      (!r.isEmpty && all r) || (r.dropWhile (fun c => (digit c).isSome)).head? == some '.' &&
        (let u := (r.dropWhile fun c => (digit c).isSome).tail
         !u.isEmpty && all u)
    body r || body (chomp r)
  | _ => false

section
variable {κ : Type} (digit : Char → Option Nat) (T : List (Opt κ))

/-- `_get_option_tuples` (argparse.py:2300-2340) for a word of at least two characters that
begins with `-`. -/
def optionTuples (w : Text) : List (Tok κ) :=
  if w[1]? = some '-' then
    let p := match partitionEq w with
      | some (n, e) => (n, true, some e)
      | none => (w, false, none)
    T.flatMap fun o => o.names.filterMap fun n =>
      if p.1.isPrefixOf n then some (.opt o n p.2.1 p.2.2) else none
  else
    T.flatMap fun o => o.names.filterMap fun n =>
      if n = w.take 2 then some (.opt o n false (some (w.drop 2)))
      else if w.isPrefixOf n then some (.opt o n false none)
      else none

/-- `_parse_optional` (argparse.py:2243-2298); `none`: the option is ambiguous, which is an
error. -/
def parseOptional (w : Text) : Option (Tok κ) :=
  if w.head? ≠ some '-' then some (.arg w)
  else match lookupOpt T w with
    | some o => some (.opt o w false none)
    | none =>
      if w.length = 1 then some (.arg w)
      else match (partitionEq w).bind fun p => (lookupOpt T p.1).map fun o => (o, p) with
        | some (o, n, e) => some (.opt o n true (some e))
        | none =>
          match optionTuples T w with
          | _ :: _ :: _ => none
          | [t] => some t
          | [] =>
            if negativeNumber digit w || w.contains ' ' then some (.arg w) else some (.unknown w)

/-- The pattern of the command line (argparse.py:1934-1959). -/
def classify : List Text → Option (List (Tok κ))
  | [] => some []
  | w :: ws =>
    if w = ['-', '-'] then some (.dashes :: ws.map .arg)
    else (parseOptional digit T w).bind fun t => (classify ws).map fun ts => t :: ts

/-- The values that follow. -/
def leadingArgs : List (Tok κ) → List Text
  | .arg t :: r => t :: leadingArgs r
  | _ => []

/-- `_match_argument` (argparse.py:2205-2225) for an option and the words that follow: its
values and the remaining words; `none` is an error. -/
def matchArgs (n : Nargs) (rest : List (Tok κ)) : Option (List Text × List (Tok κ)) :=
  match n with
  | .zero => some ([], rest)
  | .one =>
    match rest with
    | .arg t :: r => some ([t], r)
    | _ => none
  | .many =>
    if (leadingArgs rest).isEmpty then none
    else some (leadingArgs rest, rest.drop (leadingArgs rest).length)

/-- An option with a value in the same word, and flags that are written together with it
(`consume_optional`, argparse.py:2005-2048): options with their values, words that are not
recognised, remaining words; `none` is an error. -/
def consumeExplicit (rest : List (Tok κ)) (o : Opt κ) (single eq : Bool) :
    Text → Option (List (κ × List Text) × List Text × List (Tok κ))
  | [] => if o.nargs = .zero then none else some ([(o.key, [[]])], [], rest)
  | c :: e =>
    if o.nargs = .zero then
      if !single || eq || c = '-' then none
      else match lookupOpt T ['-', c] with
        | none => some ([(o.key, [])], ['-' :: c :: e], rest)
        | some o' =>
          match e with
          | [] => (matchArgs o'.nargs rest).map fun p => ([(o.key, []), (o'.key, p.1)], [], p.2)
          | '=' :: e' => (consumeExplicit rest o' true true e').map fun p => ((o.key, []) :: p.1, p.2)
          | d :: e' => (consumeExplicit rest o' true false (d :: e')).map fun p => ((o.key, []) :: p.1, p.2)
    else some ([(o.key, [c :: e])], [], rest)

/-- `consume_optional` (argparse.py:1986-2066). -/
def consumeOptional (rest : List (Tok κ)) (o : Opt κ) (name : Text) (eq : Bool) (explicit : Option Text) :
    Option (List (κ × List Text) × List Text × List (Tok κ)) :=
  match explicit with
  | none => (matchArgs o.nargs rest).map fun p => ([(o.key, p.1)], [], p.2)
  | some e => consumeExplicit T rest o (decide (name[1]? ≠ some '-')) eq e

/-- The loop of `_parse_known_args` (argparse.py:2094-2132) for a parser without positional
arguments: the actions that are taken, in order, and the words that are not recognised (`none`
if the parser stops with an error).  `n` bounds the number of rounds. -/
def consume : Nat → List (Tok κ) → List (κ × List Text) × Option (List Text)
  | 0, _ => ([], none)
  | _ + 1, [] => ([], some [])
  | n + 1, .arg t :: r => let p := consume n r; (p.1, p.2.map (t :: ·))
  | n + 1, .dashes :: r => let p := consume n r; (p.1, p.2.map (['-', '-'] :: ·))
  | n + 1, .unknown t :: r => let p := consume n r; (p.1, p.2.map (t :: ·))
  | n + 1, .opt o name eq explicit :: r =>
    match consumeOptional T r o name eq explicit with
    | none => ([], none)
    | some (acts, extras, r') => let p := consume n r'; (acts ++ p.1, p.2.map (extras ++ ·))

/-- `parse_known_args` up to the check of required options: actions in the order in which they
are taken, and words that are not recognised (`none`: an error after these actions). -/
def parseLine (args : List Text) : List (κ × List Text) × Option (List Text) :=
  match classify digit T args with
  | none => ([], none)
  | some toks => consume T (args.length + 1) toks

end
end TD
