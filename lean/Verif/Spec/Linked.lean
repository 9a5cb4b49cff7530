import Verif.Spec.Sound
import Mathlib.Logic.Relation
/-!
# Sources linked by the claims they share, and limits of runs
-/

namespace TD.Spec
attribute [-instance] instBEqProd
variable {S V X : Type} [DecidableEq S] [DecidableEq V] [DecidableEq X]

/-- Sums on a dataset with claims, or AverageLog on a dataset in which some source makes two claims. -/
def Averaging (k : Kind Ex) (l : List (S × V × X)) : Prop :=
  k = .sums ∧ l ≠ [] ∨ k = .averageLog ∧ ∃ s, 2 ≤ (claimsOf l s).card

/-- Sources whose claims matter to the algorithm: all of them for Sums, those with at least two claims
for AverageLog (the weight of the others is `log 1 / 1 = 0`). -/
def Counts (k : Kind Ex) (l : List (S × V × X)) (s : S) : Prop :=
  s ∈ allSources l ∧ (k = .averageLog → 2 ≤ (claimsOf l s).card)

/-- The sources are linked by a chain of sources (that matter) each of which makes a claim that the
next one makes as well. -/
def Linked (k : Kind Ex) (l : List (S × V × X)) : S → S → Prop :=
  Relation.ReflTransGen fun s s' => Counts k l s ∧ Counts k l s' ∧
    ∃ c, (s, c) ∈ recorded l ∧ (s', c) ∈ recorded l

/-- All sources that matter are linked. -/
def AllLinked (k : Kind Ex) (l : List (S × V × X)) : Prop :=
  ∀ s s', Counts k l s → Counts k l s' → Linked k l s s'

/-- All scores of the result differ from the given scores by less than `ε` (and are numbers). -/
def Near (l : List (S × V × X)) (ε : ℝ) (r : Result S V X Ex) (q : Scores S V X) : Prop :=
  (∀ s ∈ allSources l, ∃ t : ℝ, r.trust.get? s = some (Ex.fin t) ∧ |t - q.1 s| < ε) ∧
  ∀ v x, (v, x) ∈ allClaims l → ∃ b : ℝ,
    (r.belief.get? v).bind (fun d => d.get? x) = some (Ex.fin b) ∧ |b - q.2 (v, x)| < ε

/-- However the algorithm `k` is run on the dataset `d` with prior beliefs of the given kind, the
scores are as near to `q` as one likes if there are enough iterations. -/
def RunsTendTo (k : Kind Ex) (p : Prior) (l : List (S × V × X)) (d : Dataset S V X Ex) (q : Scores S V X) : Prop :=
  ∀ ε > 0, ∃ N : Nat, ∀ (it : IterCfg Ex) (fuel : Nat) (clock : Nat → Ex) (st : IterState Ex) (r : Result S V X Ex),
    (⟨k, it, some p⟩ : AlgCfg Ex).run d fuel clock st = .ok r →
    (∀ n, r.iterations = some n → N ≤ n) → Near l ε r q

end TD.Spec
