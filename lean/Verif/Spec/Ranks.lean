import Verif.Spec.Scores
/-!
# Dense ranks, and when rankings agree
-/

namespace TD.Spec

/-- Number of distinct smaller values on `F`. -/
noncomputable def rank {A : Type} (F : Finset A) (f : A → ℝ) (a : A) : Nat :=
  ((F.image f).filter (· < f a)).card

/-- `f` and `g` order the elements of `F` in the same way. -/
def SameOrder {A : Type} (F : Finset A) (f g : A → ℝ) : Prop :=
  ∀ a ∈ F, ∀ b ∈ F, f a < f b ↔ g a < g b

variable {S V X : Type} [DecidableEq S] [DecidableEq V] [DecidableEq X]

/-- Dense ranks of both scores. -/
noncomputable def ranks (l : List (S × V × X)) (p : Scores S V X) : Scores S V X :=
  (fun s => (rank (allSources l) p.1 s : ℝ), fun c => (rank (allClaims l) p.2 c : ℝ))

/-- The iterates of unnormalised sums, from trust 0 and the given beliefs. -/
noncomputable def usums (l : List (S × V × X)) (prior : V × X → ℝ) (k : Nat) : Scores S V X :=
  (usumsStep l)^[k] ((fun _ => 0), prior)

/-- The last `th` of the first `k` updates of the trust vector kept its ranking. -/
def Settled (l : List (S × V × X)) (prior : V × X → ℝ) (th : Int) (k : Nat) : Prop :=
  th ≤ k ∧ ∀ i, i < k → (k : Int) - th ≤ i →
    SameOrder (allSources l) (usums l prior i).1 (usums l prior (i + 1)).1

end TD.Spec
