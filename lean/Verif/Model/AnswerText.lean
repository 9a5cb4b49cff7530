import Verif.Model.JsonFiles
/-!
# The text of an answer of the server

`jsonify` of Flask 2.2.3 (the version pinned in requirements.txt) calls `json.dumps(obj, sort_keys=True, ..)` and adds a line feed: with
`separators=(",", ":")`, or with `indent=2` if the application is in debug mode (which `run_debug_server`, server.py:225-226, sets).
-/

namespace TD

/-- White space written between the parts of a value: after an opening bracket and before the closing one (the argument is the
depth), after a comma, after a colon. -/
structure JsonStyle where
  line : Nat → Text
  next : Nat → Text
  colon : Text

/-- `json.dumps(v)` -/
def JsonStyle.plain : JsonStyle := ⟨fun _ => [], fun _ => [' '], [' ']⟩

/-- `json.dumps(v, separators=(",", ":"))` -/
def JsonStyle.compact : JsonStyle := ⟨fun _ => [], fun _ => [], []⟩

/-- `'\n' + '  ' * n` (json/encoder.py:286-289) -/
def newlineIndent (n : Nat) : Text := '\n' :: List.replicate (2 * n) ' '

/-- `json.dumps(v, indent=2)` -/
def JsonStyle.indented : JsonStyle := ⟨newlineIndent, newlineIndent, [' ']⟩

section
variable {α : Type}

mutual
/-- `json.dumps(v, ..)` for a part of depth `n` (json/encoder.py:413-442). -/
def jsonText (st : JsonStyle) (showNum : α → Text) : Nat → WJson α → Text
  | _, .null => "null".toList
  | _, .bool true => "true".toList
  | _, .bool false => "false".toList
  | _, .num x => showNum x
  | _, .str t => '"' :: jsonChars t
  | _, .arr [] => ['[', ']']
  | n, .arr (x :: xs) => '[' :: (st.line (n + 1) ++ (jsonText st showNum (n + 1) x ++ jsonItems st showNum n xs))
  | _, .obj [] => ['{', '}']
  | n, .obj ((k, x) :: xs) => '{' :: (st.line (n + 1) ++ '"' ::
      (jsonChars k ++ ':' :: (st.colon ++ (jsonText st showNum (n + 1) x ++ jsonFields st showNum n xs))))
/-- The elements of a list but the first (json/encoder.py:277-335). -/
def jsonItems (st : JsonStyle) (showNum : α → Text) : Nat → List (WJson α) → Text
  | n, [] => st.line n ++ [']']
  | n, x :: xs => ',' :: (st.next (n + 1) ++ (jsonText st showNum (n + 1) x ++ jsonItems st showNum n xs))
/-- The items of a dictionary but the first (json/encoder.py:337-411). -/
def jsonFields (st : JsonStyle) (showNum : α → Text) : Nat → List (Text × WJson α) → Text
  | n, [] => st.line n ++ ['}']
  | n, (k, x) :: xs => ',' :: (st.next (n + 1) ++ '"' ::
      (jsonChars k ++ ':' :: (st.colon ++ (jsonText st showNum (n + 1) x ++ jsonFields st showNum n xs))))
end

/-- A dictionary whose keys are sorted (`sort_keys`, json/encoder.py:353-354) and then written as texts. -/
def sortedObj {κ β : Type} (lt : κ → κ → Bool) (str : κ → Text) (f : β → WJson α) (d : Dict κ β) : WJson α :=
  .obj ((pySorted (fun a b => lt a.1 b.1) d).map fun p => (str p.1, f p.2))

/-- Order of strings. -/
def textLt (a b : Text) : Bool := decide (a < b)

/-- A member that may be absent. -/
def member? (name : String) (v : Option (WJson α)) : List (Text × WJson α) :=
  match v with
  | none => []
  | some v => [(name.toList, v)]

/-- `{"mean": mean, "stddev": stddev}` (client/base.py:184, 189). -/
def statsJson (s : α × α) : WJson α := .obj [("mean".toList, .num s.1), ("stddev".toList, .num s.2)]

/-- How values of the dataset and the documents of graphs are written. -/
structure AnswerEnv (X α : Type) where
  strNat : Nat → Text
  strVal : X → Text
  ltVal : X → X → Bool
  /-- the value as a number (`MatrixDataset.from_csv` reads numbers only) -/
  numVal : X → α
  /-- `float.__repr__` in the documents -/
  showImg : ℝ → Text

section
variable {X : Type} [Arith α]

/-- A value of the output (client/base.py:169-206). Simplification: integers are floats. -/
def outValJson (env : AnswerEnv X α) : OutVal Nat Nat X α → WJson α
  | .accuracy none => .null
  | .accuracy (some x) => .num x
  | .belief d => sortedObj (fun a b => decide (a < b)) env.strNat (sortedObj env.ltVal env.strVal .num) d
  | .beliefStats d => sortedObj (fun a b => decide (a < b)) env.strNat statsJson d
  | .iterations none => .null
  | .iterations (some n) => .num (Arith.ofNat n)
  | .mostBelieved d => sortedObj (fun a b => decide (a < b)) env.strNat (fun l => .arr (l.map fun x => .num (env.numVal x))) d
  | .time x => .num x
  | .trust d => sortedObj (fun a b => decide (a < b)) env.strNat .num d
  | .trustStats s => statsJson s

/-- `output["imagery"]` (server.py:175-189): the documents are texts. -/
def imageryJson (env : AnswerEnv X α) (out : WebOut X α) : WJson α :=
  .obj (member? "animation" (out.animation.map fun doc => .str (pyDumps env.showImg doc.toW)) ++
    [("graph".toList, .str (pyDumps env.showImg out.graph.toW))])

/-- `output["diff"]` (server.py:205-210). -/
def diffJson (D : RawDiff α) : WJson α :=
  .obj [("belief".toList, sortedObj textLt id (sortedObj textLt id .num) D.belief),
    ("iterations".toList, match D.iterations with
      | none => .null
      | some x => .num x),
    ("time_taken".toList, .num D.time),
    ("trust".toList, sortedObj textLt id .num D.trust)]

/-- `output` (server.py:172-212), its members in alphabetical order. -/
def outJson (env : AnswerEnv X α) (out : WebOut X α) : WJson α :=
  let field (f : Field) := (out.fields.get? f).map (outValJson env)
  .obj (member? "accuracy" (field .accuracy) ++ (member? "belief" (field .belief) ++ (member? "belief_stats" (field .beliefStats) ++
    (member? "diff" (out.diff.map diffJson) ++ (("imagery".toList, imageryJson env out) ::
    (member? "iterations" (field .iterations) ++ (member? "most_believed_values" (field .mostBelieved) ++
    (member? "time" (field .time) ++ (member? "trust" (field .trust) ++ member? "trust_stats" (field .trustStats))))))))))

/-- `{"ok": True, "data": all_output, "messages": messages}` (server.py:214), sorted. -/
def answerJson (env : AnswerEnv X α) (data : Dict Text (WebOut X α)) (messages : List Text) : WJson α :=
  .obj [("data".toList, sortedObj textLt id (outJson env) data), ("messages".toList, .arr (messages.map .str)),
    ("ok".toList, .bool true)]

/-- The body of the response. -/
def answerText (st : JsonStyle) (showNum : α → Text) (env : AnswerEnv X α) (data : Dict Text (WebOut X α)) (messages : List Text) :
    Text :=
  jsonText st showNum 0 (answerJson env data messages) ++ ['\n']

end
end
end TD
