import Verif.Spec.Web
/-!
# Which requests escape with an exception
-/

namespace TD.Spec

section
variable {R : Rounding}

/-- The exception raised by `int(9 * x)`, or by the choice of one of nine colours with it:
`ValueError` for NaN, `OverflowError` for infinities, `IndexError` for `9 * x ≤ -10` (the
indices -1, .., -9 count from the end). -/
inductive Undrawable (x : FP R) : PyErr → Prop
  | nan (h : x *. Arith.ofNat 9 = FP.nan) : Undrawable x .valueError
  | inf (h : x *. Arith.ofNat 9 = (show FP R from .pinf) ∨ x *. Arith.ofNat 9 = (show FP R from .ninf)) :
      Undrawable x .overflow
  | low (y : ℝ) (h : x *. Arith.ofNat 9 = FP.fin y) (hy : y ≤ -10) : Undrawable x .indexError

/-- `x` is one of the scores of `r`. -/
def ScoreOf {S V X : Type} [DecidableEq S] [DecidableEq V] [DecidableEq X] (r : Result S V X (FP R))
    (x : FP R) : Prop :=
  (∃ s, r.trust.get? s = some x) ∨ ∃ v y, beliefAt r.belief v y = some x

/-- Can be subtracted from a number. -/
inductive Operand {α : Type} : WJson α → Prop
  | num (x : α) : Operand (.num x)
  | bool (b : Bool) : Operand (.bool b)

/-- Python's truth values are the integers 1 and 0. -/
def asNumber {α : Type} [Arith α] : WJson α → WJson α
  | .bool true => .num (Arith.ofNat 1)
  | .bool false => .num (Arith.ofNat 0)
  | j => j

/-- The values of an object changed by `f`; other JSON values are left alone. -/
def inObject {α : Type} (f : WJson α → WJson α) : WJson α → WJson α
  | .obj d => .obj (d.map fun p => (p.1, f p.2))
  | j => j

/-- The JSON value `j` can be compared with the result `r`: it is an object; "trust" and
"belief" are objects, "time" is a number; so are the earlier scores of sources and
claims of `r`, the earlier scores of each variable of `r` being in an object; and
"iterations" is a number (or null) if `r` has a number of iterations. -/
structure Usable {X : Type} [DecidableEq X] (env : Env X R) (r : Result Nat Nat X (FP R))
    (j : WJson (FP R)) : Prop where
  object : ∃ fs trust belief time its, j = .obj fs ∧
    Dict.get? fs "trust".toList = some (.obj trust) ∧ Dict.get? fs "belief".toList = some (.obj belief) ∧
    Dict.get? fs "time".toList = some time ∧ Dict.get? fs "iterations".toList = some its ∧
    Operand time ∧
    (∀ s x, s ∈ r.trust.keys → Dict.get? trust (env.strNat s) = some x → Operand x) ∧
    (∀ v y, v ∈ r.belief.keys → Dict.get? belief (env.strNat v) = some y → ∃ b, y = .obj b ∧
      ∀ val z x, beliefAt r.belief v val = some z → Dict.get? b (env.strVal val) = some x → Operand x) ∧
    (r.iterations = none ∨ its = .null ∨ Operand its)

section
variable {X : Type} [DecidableEq X]

/-- The request escapes with this exception at its algorithm number `i`, if it gets there. -/
inductive Escapes (env : Env X R) (prev : Option Text) (ps : Dict Text (PVal (FP R)))
    (d : Dataset Nat Nat X (FP R)) (i : Nat) (label : Text) : PyErr → Prop
  /-- the algorithm raises something that is neither `ConvergenceError` nor
  `EmptyDatasetError` -/
  | run (c : AlgLabel) (a : AnyAlg (FP R)) (e : PyErr) (h1 : label = (labelName c).toList)
      (h2 : Constructed ps c a) (h3 : a.run d env.fuel (env.clock (2 * i)) = .error e)
      (h4 : e ≠ .convergence) (h5 : e ≠ .emptyDataset) : Escapes env prev ps d i label e
  /-- a score of the result has no colour -/
  | graph (c : AlgLabel) (a : AnyAlg (FP R)) (r : Result Nat Nat X (FP R)) (x : FP R) (e : PyErr)
      (h1 : label = (labelName c).toList) (h2 : Constructed ps c a)
      (h3 : a.run d env.fuel (env.clock (2 * i)) = .ok r) (h4 : ScoreOf r x) (h5 : Undrawable x e) :
      Escapes env prev ps d i label e
  /-- a score of a partial result has no colour -/
  | animation (c : AlgLabel) (cfg : AlgCfg (FP R)) (r r' : Result Nat Nat X (FP R))
      (rs : List (Result Nat Nat X (FP R))) (x : FP R) (e : PyErr)
      (h1 : label = (labelName c).toList) (h2 : Constructed ps c (.iter cfg))
      (h3 : cfg.run d env.fuel (env.clock (2 * i)) = .ok r)
      (h4 : cfg.runIter d env.fuel (env.clock (2 * i + 1)) = .ok rs) (h5 : r' ∈ rs) (h6 : ScoreOf r' x)
      (h7 : Undrawable x e) : Escapes env prev ps d i label e
  /-- "previous_results" is complete JSON, but cannot be compared with the result -/
  | previous (c : AlgLabel) (a : AnyAlg (FP R)) (r : Result Nat Nat X (FP R)) (t : Text) (j : WJson (FP R))
      (e : PyErr) (h1 : label = (labelName c).toList) (h2 : Constructed ps c a)
      (h3 : a.run d env.fuel (env.clock (2 * i)) = .ok r) (h4 : prev = some t)
      (h5 : env.parseJson t = some j) (h6 : ¬ BadPrevious env.parseJson t) (h7 : ¬ Usable env r j)
      (h8 : e = .typeError ∨ e = .attributeError) : Escapes env prev ps d i label e

/-- The exception (if any) with which the whole request escapes: its inputs are proper, and
number `i` is the first of its algorithms at which it fails or escapes. -/
def Unanswered (env : Env X R) (req : Request) (e : PyErr) : Prop :=
  ∃ csv ps g d i label, req.csv = some csv ∧ csv ≠ [] ∧
    getParamDict env.digit env.parseFloat req.parameters = .ok ps ∧
    csvToMasked env.parseValue (csv.filter fun c => c ≠ '_') = .ok g ∧
    Dataset.mk' (getTriples g) false none = .ok d ∧ req.algorithm[i]? = some label ∧
    Escapes env req.previousResults ps d i label e ∧
    ∀ (j : Nat) label', j < i → req.algorithm[j]? = some label' →
      (∀ s, ¬ Fails env req.previousResults ps d j label' s) ∧
      ∀ e', ¬ Escapes env req.previousResults ps d j label' e'

end
end
end TD.Spec
