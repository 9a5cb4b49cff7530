import Verif.Model.JsonText
import Verif.Model.Backends
/-!
# The texts `JsonBackend` and `JsonAnimator` write
-/

namespace TD

mutual
/-- A document as the argument of `json.dump`. -/
def Json.toW : Json → WJson ℝ
  | .null => .null
  | .bool b => .bool b
  | .num x => .num x
  | .str t => .str t
  | .arr l => .arr (Json.listToW l)
  | .obj l => .obj (Json.fieldsToW l)
/-- See `Json.toW`. -/
def Json.listToW : List Json → List (WJson ℝ)
  | [] => []
  | x :: xs => x.toW :: Json.listToW xs
/-- See `Json.toW`. -/
def Json.fieldsToW : List (Text × Json) → List (Text × WJson ℝ)
  | [] => []
  | (k, x) :: xs => (k, x.toW) :: Json.fieldsToW xs
end

mutual
/-- What has been read, as a document. -/
def Json.ofW : WJson ℝ → Json
  | .null => .null
  | .bool b => .bool b
  | .num x => .num x
  | .str t => .str t
  | .arr l => .arr (Json.listOfW l)
  | .obj l => .obj (Json.fieldsOfW l)
/-- See `Json.ofW`. -/
def Json.listOfW : List (WJson ℝ) → List Json
  | [] => []
  | x :: xs => Json.ofW x :: Json.listOfW xs
/-- See `Json.ofW`. -/
def Json.fieldsOfW : List (Text × WJson ℝ) → List (Text × Json)
  | [] => []
  | (k, x) :: xs => (k, Json.ofW x) :: Json.fieldsOfW xs
end

/-- `JsonBackend.draw_entities` (json_backend.py:11-17): the text written to the file. -/
def jsonBackendText (showNum : ℝ → Text) (f : Frame) : Text := pyDumps showNum (jsonDoc f).toW

/-- `JsonAnimator.write` (animation.py:96-98): the frames are read, and written again as parts of one document; `none`: a frame
cannot be read. -/
def jsonAnimatorWrite (showNum : ℝ → Text) (R : JsonReader ℝ) (fps : ℝ) (frames : List Text) : Option Text := do
  let docs ← frames.mapM (parseJson R)
  return pyDumps showNum (.obj [("fps".toList, .num fps), ("frames".toList, .arr docs)])

end TD
