import Verif.Spec.Scores
import Verif.Model.Algorithm
import Verif.Spec.Runs
import Verif.Model.Float
/-!
# When a `Result` object reports given scores
-/

namespace TD.Spec
variable {S V X : Type} [DecidableEq S] [DecidableEq V] [DecidableEq X]

/-- The result has exactly the sources and claims of the triples `l`, with the
(finite) scores `p`. -/
def Reports (l : List (S × V × X)) (r : Result S V X Ex) (p : Scores S V X) : Prop :=
  (∀ s, r.trust.get? s = if s ∈ allSources l then some (Ex.fin (p.1 s)) else none) ∧
  (∀ v x, (r.belief.get? v).bind (fun d => d.get? x) =
    if (v, x) ∈ allClaims l then some (Ex.fin (p.2 (v, x))) else none)

/-- The implication function which returns the real numbers `f0` says, as the
user's Python function would return them; `none` stands for no function, and for
no value. -/
def finImp (f0 : Option (V → X → X → Option ℝ)) : Option (V → X → X → Option Ex) :=
  f0.map fun g v x y => (g v x y).map Ex.fin

/-- The implication value, 0 where there is none. -/
noncomputable def impVal (f0 : Option (V → X → X → Option ℝ)) (v : V) (x y : X) : ℝ :=
  match f0 with
  | none => 0
  | some g => (g v x y).getD 0

/-- Prior beliefs at label level. -/
noncomputable def priorOf (l : List (S × V × X)) : Prior → V × X → ℝ
  | .fixed => priorFixed
  | .voted => priorVoted l
  | .count => priorCount l
  | .uniform => priorUniform l

/-- Every outcome of the algorithm `c` on the dataset `d` built from the triples
`l` is given by the iterates of `step` on `init`:
* `run`, with any iterator that lets it succeed, reports the `k`-th iterate where
  `k` is the reported number of iterations;
* so does the `i`-th element of `run_iter` with the `i`-th iterate (`i+1`-st for
  CRH, which does not log its initial state);
* with a fixed number `N` of iterations `run` does succeed and performs exactly
  `N` of them (it never finishes early). -/
def Computes (c : AlgCfg Ex) (d : Dataset S V X Ex) (l : List (S × V × X))
    (init : Scores S V X) (step : Scores S V X → Scores S V X) : Prop :=
  (∀ fuel clock st r, c.run d fuel clock st = .ok r →
    ∃ k, r.iterations = some k ∧ Reports l r (step^[k] init)) ∧
  (∀ fuel clock st rs, c.runIter d fuel clock st = .ok rs → ∀ i r, rs[i]? = some r →
    Reports l r (step^[if startsWithInitial c.kind then i else i + 1] init)) ∧
  (∀ (N fuel : Nat) (clock : Nat → Ex) (st : IterState Ex), N < fuel → ∃ r,
    ({ c with iterator := .fixed N } : AlgCfg Ex).run d fuel clock st = .ok r ∧
    r.iterations = some N ∧ Reports l r (step^[N] init))

/-- All scores of a result satisfy `P` (and none is NaN or infinite). -/
def AllScores (r : Result S V X Ex) (P : ℝ → Prop) : Prop :=
  (∀ s x, r.trust.get? s = some x → ∃ y, x = Ex.fin y ∧ P y) ∧
  (∀ v x b, (r.belief.get? v).bind (fun d => d.get? x) = some b → ∃ y, b = Ex.fin y ∧ P y)

/-- Some source has exactly trust 1, and some claim exactly belief 1. -/
def OneReached (r : Result S V X Ex) : Prop :=
  (∃ s, r.trust.get? s = some (Ex.fin 1)) ∧
  (∃ v x, (r.belief.get? v).bind (fun d => d.get? x) = some (Ex.fin 1))

end TD.Spec
