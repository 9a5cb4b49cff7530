import Verif.Spec.Sound
/-!
# What CRH minimises and Investment maximises
-/

namespace TD.Spec
variable {S V X : Type} [DecidableEq S] [DecidableEq V] [DecidableEq X]

/-- Every source makes a claim about every variable. -/
def EveryoneClaims (l : List (S × V × X)) : Prop :=
  ∀ s ∈ allSources l, ∀ c ∈ allClaims l, ∃ x, (s, c.1, x) ∈ recorded l

/-- The weighted losses of the sources (with tolerance `eps`). -/
noncomputable def objective (l : List (S × V × X)) (eps : ℝ) (t : S → ℝ) (b : V × X → ℝ) : ℝ :=
  ∑ s ∈ allSources l, t s * (eps + loss l b s)

/-- The constraint on the weights. -/
def Admissible (l : List (S × V × X)) (eps : ℝ) (t : S → ℝ) : Prop :=
  ∑ s ∈ allSources l, Real.exp (-(t s - eps)) = 1

/-- Enough iterations of CRH for `n` sources and `m` claims to come within the threshold `th`. -/
noncomputable def crhBound (n m : Nat) (eps th : ℝ) : ℝ :=
  16 * m ^ 2 * (n * (eps + m)) * (eps + Real.log n) / (eps ^ 3 * (min (2 * eps ^ 2) (th / n)) ^ 2) + 3

/-- How concentrated the investments are: the sum of the `g`-th powers of the shares of the claims. -/
noncomputable def concentration (l : List (S × V × X)) (g : ℝ) (t : S → ℝ) : ℝ :=
  ∑ c ∈ allClaims l, (invested l t c / ∑ s ∈ allSources l, t s) ^ g

/-- Every claimed value has exactly `m` sources, and exactly `n` different values are claimed for every
variable. -/
def EvenlySplit (l : List (S × V × X)) (m n : Nat) : Prop :=
  ∀ c ∈ allClaims l, (sourcesOf l c).card = m ∧ (rivals l c).card = n

/-- Any two different values of a variable contradict each other: the implication value is -1. -/
def Contradicting (f : Option (V → X → X → Option ℝ)) : Prop :=
  ∃ g, f = some g ∧ ∀ v x y, x ≠ y → g v x y = some (-1)

end TD.Spec
