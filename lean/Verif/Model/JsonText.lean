import Verif.Model.Web
/-!
# JSON texts

What `json.dump` and `json.dumps` of Python write (json_backend.py:17, animation.py:98, server.py:115, 203) and what `JSON.parse` of
the browser (app.js:2-3, 85, 90) and `json.loads` of Python (animation.py:97, server.py:79) read.
-/

namespace TD

/-! ### Writing -/

/-- A hexadecimal digit, in lower case. -/
def hexDigit (n : Nat) : Char := if n < 10 then Char.ofNat (48 + n) else Char.ofNat (87 + n)

/-- `'\\u{0:04x}'.format(n)` (json/encoder.py:57). -/
def uEscape (n : Nat) : Text :=
  ['\\', 'u', hexDigit (n / 4096 % 16), hexDigit (n / 256 % 16), hexDigit (n / 16 % 16), hexDigit (n % 16)]

/-- `replace` of `py_encode_basestring_ascii` (json/encoder.py:47-64) for one character, or the character itself if it does not
match `ESCAPE_ASCII` (json/encoder.py:17-30). -/
def jsonChar (c : Char) : Text :=
  if c = '\\' then ['\\', '\\']
  else if c = '"' then ['\\', '"']
  else if c = Char.ofNat 8 then ['\\', 'b']
  else if c = Char.ofNat 12 then ['\\', 'f']
  else if c = '\n' then ['\\', 'n']
  else if c = '\r' then ['\\', 'r']
  else if c = '\t' then ['\\', 't']
  else if 32 ≤ c.toNat ∧ c.toNat ≤ 126 then [c]
  else if c.toNat < 0x10000 then uEscape c.toNat
  else uEscape (0xd800 + (c.toNat - 0x10000) / 0x400) ++ uEscape (0xdc00 + (c.toNat - 0x10000) % 0x400)

/-- The inside of a string, and the quotation mark that ends it. -/
def jsonChars (t : Text) : Text := t.flatMap jsonChar ++ ['"']

section
variable {α : Type}

mutual
/-- `json.dumps(v)` (json/encoder.py:413-442); `showNum` is `int.__repr__`, or `floatstr` (json/encoder.py:223-243). -/
def pyDumps (showNum : α → Text) : WJson α → Text
  | .null => "null".toList
  | .bool true => "true".toList
  | .bool false => "false".toList
  | .num x => showNum x
  | .str t => '"' :: jsonChars t
  | .arr [] => ['[', ']']
  | .arr (x :: xs) => '[' :: (pyDumps showNum x ++ pyItems showNum xs)
  | .obj [] => ['{', '}']
  | .obj ((k, x) :: xs) => '{' :: '"' :: (jsonChars k ++ ':' :: ' ' :: (pyDumps showNum x ++ pyFields showNum xs))
/-- The elements of a list but the first (json/encoder.py:277-335). -/
def pyItems (showNum : α → Text) : List (WJson α) → Text
  | [] => [']']
  | x :: xs => ',' :: ' ' :: (pyDumps showNum x ++ pyItems showNum xs)
/-- The items of a dictionary but the first (json/encoder.py:337-411). -/
def pyFields (showNum : α → Text) : List (Text × WJson α) → Text
  | [] => ['}']
  | (k, x) :: xs => ',' :: ' ' :: '"' :: (jsonChars k ++ ':' :: ' ' :: (pyDumps showNum x ++ pyFields showNum xs))
end

/-! ### Reading -/

/-- White space of JSON. -/
def isJsonSpace (c : Char) : Bool := c = ' ' || c = '\t' || c = '\n' || c = '\r'

/-- Skip white space. -/
def skipWs (t : Text) : Text := t.dropWhile isJsonSpace

/-- The rest of the text if its next character is `c`. -/
def eat (c : Char) (t : Text) : Option Text :=
  match skipWs t with
  | [] => none
  | d :: r => if d = c then some r else none

/-- The rest of the text if it begins with `word`. -/
def eatWord : Text → Text → Option Text
  | [], t => some t
  | _ :: _, [] => none
  | c :: w, d :: t => if c = d then eatWord w t else none

/-- The value of a hexadecimal digit. -/
def hexVal (c : Char) : Option Nat :=
  let n := c.toNat
  if 48 ≤ n ∧ n ≤ 57 then some (n - 48)
  else if 97 ≤ n ∧ n ≤ 102 then some (n - 87)
  else if 65 ≤ n ∧ n ≤ 70 then some (n - 55)
  else none

/-- The value of four hexadecimal digits. -/
def hex4 (a b c d : Char) : Option Nat := do
  return (← hexVal a) * 4096 + (← hexVal b) * 256 + (← hexVal c) * 16 + (← hexVal d)

/-- The escapes of two characters. -/
def shortEscape (c : Char) : Option Nat :=
  if c = '"' then some 34
  else if c = '\\' then some 92
  else if c = '/' then some 47
  else if c = 'b' then some 8
  else if c = 'f' then some 12
  else if c = 'n' then some 10
  else if c = 'r' then some 13
  else if c = 't' then some 9
  else none

/-- The UTF-16 code units of a character. -/
def utf16 (c : Char) : List Nat :=
  if c.toNat < 0x10000 then [c.toNat]
  else [0xd800 + (c.toNat - 0x10000) / 0x400, 0xdc00 + (c.toNat - 0x10000) % 0x400]

/-- The code units of a string up to its quotation mark, and the rest of the text. -/
def readUnits : Text → Option (List Nat × Text)
  | [] => none
  | c :: r =>
    if c = '"' then some ([], r)
    else if c = '\\' then
      match r with
      | [] => none
      | e :: r =>
        if e = 'u' then
          match r with
          | a :: b :: c :: d :: r =>
            match hex4 a b c d with
            | none => none
            | some u => (readUnits r).map fun p => (u :: p.1, p.2)
          | _ => none
        else match shortEscape e with
          | none => none
          | some u => (readUnits r).map fun p => (u :: p.1, p.2)
    else if c.toNat < 32 then none
    else (readUnits r).map fun p => (utf16 c ++ p.1, p.2)

/-- The characters with these code units.  Simplification: `none` for a surrogate without its partner (both languages accept it, as
a string that is no sequence of characters). -/
def decodeUnits : List Nat → Option Text
  | [] => some []
  | u :: us =>
    if 0xd800 ≤ u ∧ u < 0xdc00 then
      match us with
      | [] => none
      | v :: vs =>
        if 0xdc00 ≤ v ∧ v < 0xe000 then
          (decodeUnits vs).map (Char.ofNat (0x10000 + (u - 0xd800) * 0x400 + (v - 0xdc00)) :: ·)
        else none
    else if 0xdc00 ≤ u ∧ u < 0xe000 then none
    else (decodeUnits us).map (Char.ofNat u :: ·)

/-- A string whose first quotation mark has been read. -/
def readString (t : Text) : Option (Text × Text) :=
  match readUnits t with
  | none => none
  | some (us, r) => (decodeUnits us).map fun s => (s, r)

/-- The characters of numbers. -/
def isNumChar (c : Char) : Bool := c.isDigit || c = '-' || c = '+' || c = '.' || c = 'e' || c = 'E'

/-- How numbers are read: the numeric literals (after a number comes the end, white space or one of `,]}`, so that the longest text of
such characters is taken), and further words for numbers: `NaN`, `Infinity`, `-Infinity` for Python (json/scanner.py:58-63), none for
the browser. -/
structure JsonReader (α : Type) where
  number : Text → Option α
  words : List (Text × α)

/-- The first of the words with which the text begins. -/
def readWord : List (Text × WJson α) → Text → Option (WJson α × Text)
  | [], _ => none
  | (w, v) :: ws, t =>
    match eatWord w t with
    | some r => some (v, r)
    | none => readWord ws t

/-- A value that is no string, list or object (json/scanner.py:38-64). -/
def readScalar (R : JsonReader α) (t : Text) : Option (WJson α × Text) :=
  match readWord [("null".toList, .null), ("true".toList, .bool true), ("false".toList, .bool false)] t with
  | some p => some p
  | none =>
    match R.number (t.takeWhile isNumChar) with
    | some x => some (.num x, t.dropWhile isNumChar)
    | none => readWord (R.words.map fun p => (p.1, .num p.2)) t

mutual
/-- A value (json/scanner.py:26-64); the first argument bounds the recursion.  Simplification: an object is the list of its
members, also if a name is repeated. -/
def readValue (R : JsonReader α) : Nat → Text → Option (WJson α × Text)
  | 0, _ => none
  | n + 1, t =>
    match skipWs t with
    | [] => none
    | c :: r =>
      if c = '"' then (readString r).map fun p => (.str p.1, p.2)
      else if c = '[' then
        match eat ']' r with
        | some r => some (.arr [], r)
        | none => (readItems R n r).map fun p => (.arr p.1, p.2)
      else if c = '{' then
        match eat '}' r with
        | some r => some (.obj [], r)
        | none => (readFields R n r).map fun p => (.obj p.1, p.2)
      else readScalar R (c :: r)
/-- The elements of a list. -/
def readItems (R : JsonReader α) : Nat → Text → Option (List (WJson α) × Text)
  | 0, _ => none
  | n + 1, t =>
    match readValue R n t with
    | none => none
    | some (v, r) => (readItemsTail R n r).map fun p => (v :: p.1, p.2)
/-- What follows an element of a list. -/
def readItemsTail (R : JsonReader α) : Nat → Text → Option (List (WJson α) × Text)
  | 0, _ => none
  | n + 1, t =>
    match eat ',' t with
    | some r => readItems R n r
    | none => (eat ']' t).map fun r => ([], r)
/-- The members of an object. -/
def readFields (R : JsonReader α) : Nat → Text → Option (List (Text × WJson α) × Text)
  | 0, _ => none
  | n + 1, t =>
    match eat '"' t with
    | none => none
    | some r =>
      match readString r with
      | none => none
      | some (k, r) =>
        match eat ':' r with
        | none => none
        | some r =>
          match readValue R n r with
          | none => none
          | some (v, r) => (readFieldsTail R n r).map fun p => ((k, v) :: p.1, p.2)
/-- What follows a member of an object. -/
def readFieldsTail (R : JsonReader α) : Nat → Text → Option (List (Text × WJson α) × Text)
  | 0, _ => none
  | n + 1, t =>
    match eat ',' t with
    | some r => readFields R n r
    | none => (eat '}' t).map fun r => ([], r)
end

/-- `JSON.parse(t)` or `json.loads(t)`; `none` is an exception. -/
def parseJson (R : JsonReader α) (t : Text) : Option (WJson α) :=
  match readValue R (2 * t.length + 2) t with
  | none => none
  | some (v, r) => if skipWs r = [] then some v else none

end
end TD
