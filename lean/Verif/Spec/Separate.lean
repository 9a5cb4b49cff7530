import Verif.Spec.Ranks
/-!
# When two scores are so different that rounding cannot confuse them
-/

namespace TD.Spec

/-- `x` is less than `y`, by more than the fraction `K / 2 ^ 52` of `y`. -/
def ClearlyLess (K : Nat) (x y : ℝ) : Prop := x < y * (1 - K / 2 ^ 52)

variable {S V X : Type} [DecidableEq S] [DecidableEq V] [DecidableEq X]

/-- Any two sources have clearly different scores, or make the same claims. -/
def SourcesApart (l : List (S × V × X)) (K : Nat) (t : S → ℝ) : Prop :=
  ∀ s ∈ allSources l, ∀ s' ∈ allSources l,
    claimsOf l s = claimsOf l s' ∨ ClearlyLess K (t s) (t s') ∨ ClearlyLess K (t s') (t s)

/-- Any two claims have clearly different scores, or are made by the same sources. -/
def ClaimsApart (l : List (S × V × X)) (K : Nat) (b : V × X → ℝ) : Prop :=
  ∀ c ∈ allClaims l, ∀ c' ∈ allClaims l,
    sourcesOf l c = sourcesOf l c' ∨ ClearlyLess K (b c) (b c') ∨ ClearlyLess K (b c') (b c)

end TD.Spec
