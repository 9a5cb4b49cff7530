import Verif.Spec.Scores
import Verif.Spec.Reports
/-!
# How much TruthFinder amplifies differences of the trust scores
-/

namespace TD.Spec
variable {S V X : Type} [DecidableEq S] [DecidableEq V] [DecidableEq X]

/-- The dampening factor, times the number of sources whose trust enters the confidence in the claim `c`: its own sources count one
each, the sources of another value of the variable count the influence parameter times the (absolute value of the) implication. -/
noncomputable def amplification (l : List (S × V × X)) (f : Option (V → X → X → Option ℝ)) (rho gamma : ℝ) (c : V × X) : ℝ :=
  gamma * ((sourcesOf l c).card + |rho| * ∑ d ∈ (rivals l c).erase c, |impVal f c.1 d.2 c.2| * (sourcesOf l d).card)

/-- The largest of the trustworthiness scores `-log (1 - t)`, `-log (1 - t')` of two initial trusts and `log 2 / (1 - kappa)`. -/
noncomputable def startGap (kappa t t' : ℝ) : ℝ :=
  max (max (-Real.log (1 - t)) (-Real.log (1 - t'))) (Real.log 2 / (1 - kappa))

/-- The update of TruthFinder leaves the scores `q` as they are. -/
def Balanced (l : List (S × V × X)) (f : Option (V → X → X → Option ℝ)) (rho gamma : ℝ) (q : Scores S V X) : Prop :=
  (∀ s ∈ allSources l, (tfStep l (impVal f) rho gamma q).1 s = q.1 s) ∧ ∀ c ∈ allClaims l, (tfStep l (impVal f) rho gamma q).2 c = q.2 c

/-- How much the weights of the sources in the confidence in the claim `c` differ between two settings of TruthFinder (implications `f`, influence
parameter `rho`, dampening factor `gamma`), in total. -/
noncomputable def settingChange (l : List (S × V × X)) (f f' : Option (V → X → X → Option ℝ)) (rho rho' gamma gamma' : ℝ) (c : V × X) : ℝ :=
  |gamma - gamma'| * (sourcesOf l c).card +
    ∑ d ∈ (rivals l c).erase c, |gamma * rho * impVal f c.1 d.2 c.2 - gamma' * rho' * impVal f' c.1 d.2 c.2| * (sourcesOf l d).card

/-- Two lists of triples agree around the source `s`, up to the distance `k`: its claims are the same, these have the same rivals, claimed by
the same sources, and the lists agree around all of these up to the distance `k - 1`. -/
def AgreeAround (l l' : List (S × V × X)) : Nat → S → Prop
  | 0, _ => True
  | k + 1, s => claimsOf l s = claimsOf l' s ∧ ∀ c ∈ claimsOf l s, rivals l c = rivals l' c ∧ ∀ d ∈ rivals l c,
      sourcesOf l d = sourcesOf l' d ∧ ∀ u ∈ sourcesOf l d, AgreeAround l l' k u

end TD.Spec
