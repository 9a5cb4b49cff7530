import Verif.Model.Algorithm
import Verif.Spec.Dataset
/-!
# What `run_iter` starts with, and when an algorithm gives up
-/

namespace TD.Spec
attribute [-instance] instBEqProd

/-- The first element of `run_iter` is the state before the first iteration: for every algorithm except CRH, whose
first element is the state after it. -/
def startsWithInitial {α : Type} : Kind α → Bool
  | .sums => true
  | .averageLog => true
  | .investment _ => true
  | .pooledInvestment _ => true
  | .truthFinder _ _ _ => true
  | .crh _ => false
  | .unboundedSums => true

section
variable {S V X α : Type} [DecidableEq S] [DecidableEq V] [DecidableEq X] [Arith α]

/-- Numbers added up one after the other, starting from 0, each with weight 1. -/
def addUp (xs : List α) : α := xs.foldl (fun acc x => acc +. Arith.ofNat 1 *. x) (Arith.ofNat 0)

/-- The number of claims of a source, in the arithmetic of the scores. -/
def claimsMade (l : List (S × V × X)) (s : S) : α :=
  addUp (((claims l).filter fun c => (s, c) ∈ recorded l).map fun _ => Arith.ofNat 1)

/-- What is invested in the claim `c` when every source divides the trust score it has in the result `r`
equally between its claims. -/
def investedIn (l : List (S × V × X)) (r : Result S V X α) (c : V × X) : α :=
  addUp ((r.trust.filter fun p => (p.1, c) ∈ recorded l).map fun p => p.2 /. claimsMade l p.1)

/-- The states an algorithm cannot go on from: for Investment and PooledInvestment those in which nothing is
invested in some claim, for TruthFinder those in which some source has trust score 1.  The other algorithms have
none. -/
def CannotContinue (l : List (S × V × X)) (r : Result S V X α) : Kind α → Prop
  | .investment _ | .pooledInvestment _ => ∃ c ∈ claims l, Arith.eq (investedIn l r c) (Arith.ofNat 0) = true
  | .truthFinder _ _ _ => ∃ s t, (s, t) ∈ r.trust ∧ Arith.eq t (Arith.ofNat 1) = true
  | .sums | .averageLog | .crh _ | .unboundedSums => False

/-- The trust vectors that can be seen in the partial results: those of the partial results in order, preceded by
zeros (for all `n` sources) for CRH, which starts from zeros but does not report it. -/
def trustSequence (k : Kind α) (n : Nat) (rs : List (Result S V X α)) : List (Vec α) :=
  (if startsWithInitial k then [] else [List.replicate n (Arith.ofNat 0)]) ++
    rs.map fun r => r.trust.map Prod.snd

/-- How far the trust vector `w` is from the one before it, `u`: Sums and CRH pass the old one first, the others the
new one. -/
def change (k : Kind α) (ms : Option Measure) (u w : Vec α) : Except PyErr α :=
  match k with
  | .sums | .crh _ => getDistance ms u w
  | _ => getDistance ms w u

end
end TD.Spec
