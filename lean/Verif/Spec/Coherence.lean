import Verif.Spec.Reports
/-!
# Coherence

The axiom of the literature on truth discovery: a claim whose sources are less trusted is less
believed; a source whose claims are less believed is less trusted.
-/

namespace TD.Spec

/-- The elements of `F` can be paired off with those of `G` such that no element of `F` has a
larger score than its partner, and one has a smaller score. -/
def Below {A : Type} (F G : Finset A) (score : A → ℝ) : Prop :=
  ∃ φ : A → A, Set.BijOn φ F G ∧ (∀ a ∈ F, score a ≤ score (φ a)) ∧ ∃ a ∈ F, score a < score (φ a)

variable {S V X : Type} [DecidableEq S] [DecidableEq V] [DecidableEq X]

/-- Claims with less trusted sources have less belief. -/
def ClaimsCoherentScores (l : List (S × V × X)) (p : Scores S V X) : Prop :=
  ∀ c ∈ allClaims l, ∀ c' ∈ allClaims l, Below (sourcesOf l c) (sourcesOf l c') p.1 → p.2 c < p.2 c'

/-- Sources with less believed claims have less trust. -/
def SourcesCoherentScores (l : List (S × V × X)) (p : Scores S V X) : Prop :=
  ∀ s ∈ allSources l, ∀ s' ∈ allSources l, Below (claimsOf l s) (claimsOf l s') p.2 → p.1 s < p.1 s'

/-- The result has finite scores, and claims with less trusted sources have less belief. -/
def ClaimsCoherent (l : List (S × V × X)) (r : Result S V X Ex) : Prop :=
  ∃ p, Reports l r p ∧ ClaimsCoherentScores l p

/-- The result has finite scores, and sources with less believed claims have less trust. -/
def SourcesCoherent (l : List (S × V × X)) (r : Result S V X Ex) : Prop :=
  ∃ p, Reports l r p ∧ SourcesCoherentScores l p

end TD.Spec
