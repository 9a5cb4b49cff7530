import Verif.Model.Frontend
import Verif.Model.Home
/-!
# From the form to the handler: the address the page requests and what the server reads from it

`$http` of AngularJS 1.7.7 (static/js/angular.min.js), `encodeURIComponent`, the address parser of the browser, `url_decode` of
Werkzeug 2.2.3 (the version pinned in requirements.txt) and the routes of the application.
-/

namespace TD

/-! ### Writing the address -/

/-- The UTF-8 bytes of a character. -/
def utf8 (c : Char) : List Nat :=
  let n := c.toNat
  if n < 0x80 then [n]
  else if n < 0x800 then [0xc0 + n / 64, 0x80 + n % 64]
  else if n < 0x10000 then [0xe0 + n / 4096, 0x80 + n / 64 % 64, 0x80 + n % 64]
  else [0xf0 + n / 262144, 0x80 + n / 4096 % 64, 0x80 + n / 64 % 64, 0x80 + n % 64]

/-- A hexadecimal digit, in upper case. -/
def hexUpper (n : Nat) : Char := if n < 10 then Char.ofNat (48 + n) else Char.ofNat (55 + n)

/-- `%XX` -/
def percent (b : Nat) : Text := ['%', hexUpper (b / 16), hexUpper (b % 16)]

/-- The characters that `encodeURIComponent` leaves alone. -/
def uriUnreserved (c : Char) : Bool := c.isAlphanum || c ∈ ['-', '_', '.', '!', '~', '*', '\'', '(', ')']

/-- `encodeURIComponent(t)` -/
def encodeURIComponent (t : Text) : Text := t.flatMap fun c => if uriUnreserved c then [c] else (utf8 c).flatMap percent

/-- `t.replace(/%hl/gi, c)`; the flag `i`: in whatever case. -/
def replaceEscape (h l c : Char) : Text → Text
  | '%' :: a :: b :: r =>
    if a.toLower = h.toLower ∧ b.toLower = l.toLower then c :: replaceEscape h l c r else '%' :: replaceEscape h l c (a :: b :: r)
  | a :: r => a :: replaceEscape h l c r
  | [] => []

/-- `encodeUriQuery(t)` of AngularJS (angular.min.js:19-20, `ba`). -/
def encodeUriQuery (t : Text) : Text :=
  replaceEscape '2' '0' '+' (replaceEscape '3' 'B' ';' (replaceEscape '2' 'C' ',' (replaceEscape '2' '4' '$'
    (replaceEscape '3' 'A' ':' (replaceEscape '4' '0' '@' (encodeURIComponent t))))))

/-- `b.push(ba(c) + "=" + ba(uc(a)))` for every parameter, `b.join("&")` (angular.min.js:102, `Of`). -/
def serializeParams (ps : List (Text × Text)) : Text :=
  joinWith '&' (ps.map fun p => encodeUriQuery p.1 ++ '=' :: encodeUriQuery p.2)

/-- A parameter that may be absent. -/
def param? (name : String) (v : Option Text) : List (Text × Text) :=
  match v with
  | none => []
  | some v => [(name.toList, v)]

/-- The parameters of `getResults` (app.js:43-54) in the order in which AngularJS takes them (that of the names); an array is sent as
one parameter for each element. -/
def requestParams (req : Request) : List (Text × Text) :=
  req.algorithm.map (fun t => ("algorithm".toList, t)) ++ (param? "matrix" req.csv ++ (param? "parameters" req.parameters ++
    param? "previous_results" req.previousResults))

/-- `buildUrl` of AngularJS (angular.min.js:108, `G`). -/
def buildUrl (url params : Text) : Text :=
  if 0 < params.length then url ++ (if '?' ∈ url then '&' else '?') :: params else url

/-- What the browser sends for an address without host: the part from `#` on is not sent, and apostrophes of the query are escaped.
Simplification: the address has no other character that browsers escape (there is none after `encodeURIComponent`). -/
def requestTarget (url : Text) : Text :=
  let url := url.takeWhile (· ≠ '#')
  match splitOnce '?' url with
  | none => url
  | some (path, query) => path ++ '?' :: query.flatMap fun c => if c = '\'' then "%27".toList else [c]

/-- An HTTP request: method and target. -/
structure HttpRequest where
  method : Text
  target : Text

/-- The request of the page for the given parameters (app.js:20-21, 55-59). -/
def pageRequest (req : Request) : HttpRequest :=
  ⟨"GET".toList, requestTarget (buildUrl "/run/".toList (serializeParams (requestParams req)))⟩

/-! ### Reading it -/

/-- `unquote_to_bytes` (werkzeug/urls.py, `_unquote_to_bytes`); the characters of the argument stand for bytes. -/
def unquoteBytes : Text → List Nat
  | '%' :: a :: b :: r =>
    match hexVal a, hexVal b with
    | some x, some y => (x * 16 + y) :: unquoteBytes r
    | _, _ => 37 :: unquoteBytes (a :: b :: r)
  | c :: r => c.toNat :: unquoteBytes r
  | [] => []

/-- Is it a continuation byte of UTF-8? -/
def isCont (b : Nat) : Prop := 0x80 ≤ b ∧ b < 0xc0

instance (b : Nat) : Decidable (isCont b) := by unfold isCont; infer_instance

/-- `bytes.decode("utf-8", errors="replace")`.  Simplification: malformed parts are replaced byte by byte (Python replaces some of
them together). -/
def decodeUtf8 : List Nat → Text
  | [] => []
  | a :: r =>
    if a < 0x80 then Char.ofNat a :: decodeUtf8 r
    else if 0xc2 ≤ a ∧ a < 0xe0 then
      match r with
      | b :: r => if isCont b then Char.ofNat ((a - 0xc0) * 64 + (b - 0x80)) :: decodeUtf8 r
        else Char.ofNat 0xfffd :: decodeUtf8 (b :: r)
      | [] => [Char.ofNat 0xfffd]
    else if 0xe0 ≤ a ∧ a < 0xf0 then
      match r with
      | b :: c :: r =>
        let n := (a - 0xe0) * 4096 + (b - 0x80) * 64 + (c - 0x80)
        if isCont b ∧ isCont c ∧ 0x800 ≤ n ∧ ¬(0xd800 ≤ n ∧ n < 0xe000) then Char.ofNat n :: decodeUtf8 r
        else Char.ofNat 0xfffd :: decodeUtf8 (b :: c :: r)
      | [b] => Char.ofNat 0xfffd :: decodeUtf8 [b]
      | [] => [Char.ofNat 0xfffd]
    else if 0xf0 ≤ a ∧ a < 0xf5 then
      match r with
      | b :: c :: d :: r =>
        let n := (a - 0xf0) * 262144 + (b - 0x80) * 4096 + (c - 0x80) * 64 + (d - 0x80)
        if isCont b ∧ isCont c ∧ isCont d ∧ 0x10000 ≤ n ∧ n < 0x110000 then Char.ofNat n :: decodeUtf8 r
        else Char.ofNat 0xfffd :: decodeUtf8 (b :: c :: d :: r)
      | [b, c] => Char.ofNat 0xfffd :: decodeUtf8 [b, c]
      | [b] => Char.ofNat 0xfffd :: decodeUtf8 [b]
      | [] => [Char.ofNat 0xfffd]
    else Char.ofNat 0xfffd :: decodeUtf8 r

/-- `url_unquote_plus(t)` (werkzeug/urls.py). -/
def unquotePlus (t : Text) : Text := decodeUtf8 (unquoteBytes (t.map fun c => if c = '+' then ' ' else c))

/-- `request.args`: `url_decode(query_string)` (werkzeug/urls.py, `_url_decode_impl`). -/
def requestArgs (query : Text) : List (Text × Text) :=
  ((split '&' query).filter fun p => decide (p ≠ [])).map fun p =>
    match splitOnce '=' p with
    | some (k, v) => (unquotePlus k, unquotePlus v)
    | none => (unquotePlus p, [])

/-- `request.args.getlist("algorithm")`, `request.args.get("matrix")`, .. (server.py:133-134, 141, 192); `get` takes the first. -/
def readRequest (args : List (Text × Text)) : Request where
  algorithm := (args.filter fun p => decide (p.1 = "algorithm".toList)).map (·.2)
  csv := args.lookup "matrix".toList
  parameters := args.lookup "parameters".toList
  previousResults := args.lookup "previous_results".toList

/-- The methods of `WebClient` with a route. -/
inductive Handler
  | homePage
  | run
  deriving DecidableEq

/-- `route.routes` (server.py:35, 41-43, 105, 117): the address, the method names given (`GET` if none), the method. -/
def routes : List (Text × List Text × Handler) :=
  [("/".toList, ["GET".toList], .homePage), ("/run/".toList, ["GET".toList], .run)]

/-- The handler called for a method and a path; `none`: Flask answers by itself (404, 405, redirection to the address with a slash,
files under `/static/`, `OPTIONS`).  A route for `GET` is also one for `HEAD`. -/
def handlerOf (method path : Text) : Option Handler :=
  (routes.find? fun r => decide (r.1 = path) && (decide (method ∈ r.2.1) ||
    (decide (method = "HEAD".toList) && decide ("GET".toList ∈ r.2.1)))).map (·.2.2)

/-- What is answered: the page, the answer of `WebClient.run` (or the exception it raises), or what Flask answers by itself. -/
inductive Served (X α : Type)
  | page (text : Text)
  | answer (r : Except PyErr (Response X α))
  | other

/-- The target is split into path and query at the first question mark. -/
def splitTarget (target : Text) : Text × Text :=
  match splitOnce '?' target with
  | none => (target, [])
  | some p => p

/-- The application (server.py:217-221). -/
noncomputable def serve {X : Type} [DecidableEq X] {R : Rounding} (env : Env X R) (showNum : FP R → Text) (after : Text) (r : HttpRequest) :
    Served X (FP R) :=
  let t := splitTarget r.target
  match handlerOf r.method t.1 with
  | some .homePage => .page (homePage showNum after)
  | some .run => .answer (webRun env (readRequest (requestArgs t.2)))
  | none => .other

end TD
