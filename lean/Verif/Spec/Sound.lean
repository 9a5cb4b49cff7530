import Verif.Spec.Reports
import Verif.Spec.Ranks
/-!
# Configurations in which the algorithms are well defined
-/

namespace TD.Spec
variable {S V X : Type} [DecidableEq S] [DecidableEq V] [DecidableEq X]

/-- No score is negative. -/
def NonNeg (l : List (S × V × X)) (p : Scores S V X) : Prop :=
  (∀ s ∈ allSources l, 0 ≤ p.1 s) ∧ ∀ c ∈ allClaims l, 0 ≤ p.2 c

/-- The parameters of the algorithm make sense for the dataset: finite numbers; for
AverageLog some source with two claims; for TruthFinder an initial trust in `[0, 1)`; for CRH a
positive `eps`; for UnboundedSums its own kind of iterator. -/
def Sound (l : List (S × V × X)) (c : AlgCfg Ex) : Prop :=
  match c.kind with
  | .sums => c.priors ≠ none
  | .averageLog => c.priors ≠ none ∧ ∃ s, 2 ≤ (claimsOf l s).card
  | .investment g => c.priors ≠ none ∧ ∃ y : ℝ, g = Ex.fin y
  | .pooledInvestment g => c.priors ≠ none ∧ ∃ y : ℝ, g = Ex.fin y
  | .truthFinder rho gamma t => ∃ a b y : ℝ, rho = Ex.fin a ∧ gamma = Ex.fin b ∧ t = Ex.fin y ∧
      0 ≤ y ∧ y < 1
  | .crh eps => ∃ y : ℝ, eps = Ex.fin y ∧ 0 < y
  | .unboundedSums => c.priors ≠ none ∧ ∃ th : Int, c.iterator = .ord th

/-- The distance measure of a convergence iterator is one of the four. -/
def MeasureOk (it : IterCfg Ex) : Prop := ∀ th lim, it ≠ .conv none th lim

end TD.Spec
