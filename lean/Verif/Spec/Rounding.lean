import Verif.Spec.Scores
import Verif.Model.Algorithm
import Verif.Model.Float
/-!
# Rounding that is good enough, and scores of rounded computations
-/

namespace TD.Spec
variable {S V X : Type} [DecidableEq S] [DecidableEq V] [DecidableEq X] {R : Rounding}

/-- The integers up to `N` are represented exactly, and `1/N` does not become 0. -/
structure Precise (R : Rounding) (N : Nat) : Prop where
  nat : ∀ n : Nat, n ≤ N → R.rnd n = .fin n
  pos : ∃ y, R.rnd (1 / N) = .fin y ∧ 0 < y

/-- All trust and belief scores of a result are finite and satisfy `P`. -/
def Within (r : Result S V X (FP R)) (P : ℝ → Prop) : Prop :=
  (∀ s x, r.trust.get? s = some x → ∃ y, x = FP.fin y ∧ P y) ∧
  (∀ v x b, (r.belief.get? v).bind (fun d => d.get? x) = some b → ∃ y, b = FP.fin y ∧ P y)

/-- Some source has exactly trust 1, and some claim exactly belief 1. -/
def OneAttained (r : Result S V X (FP R)) : Prop :=
  (∃ s, r.trust.get? s = some (FP.fin 1)) ∧
  (∃ v x, (r.belief.get? v).bind (fun d => d.get? x) = some (FP.fin 1))

/-- Every source and every claim of the triples has a score, and nothing else has. -/
def Complete (l : List (S × V × X)) (r : Result S V X (FP R)) : Prop :=
  (∀ s, (r.trust.get? s).isSome ↔ s ∈ allSources l) ∧
  (∀ v x, ((r.belief.get? v).bind (fun d => d.get? x)).isSome ↔ (v, x) ∈ allClaims l)

/-- Investment and PooledInvestment with an exponent between 0 and 3/2. -/
def Invests (k : Kind (FP R)) : Prop :=
  ∃ g : ℝ, 0 < g ∧ g ≤ 3 / 2 ∧ (k = .investment (FP.fin g) ∨ k = .pooledInvestment (FP.fin g))

/-- Neither tiny nor huge. -/
def Moderate (y : ℝ) : Prop := (2 : ℝ) ^ (-600 : ℤ) ≤ y ∧ y ≤ 2 ^ (20 : ℤ)

end TD.Spec
