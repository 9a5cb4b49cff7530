import Verif.Model.Trials
import Verif.Spec.Matrix
/-!
# What the results of the experiments in `examples/` mean
-/

namespace TD.Spec
variable {α : Type} [Arith α]

/-- The `i`-th value an iterator delivers. -/
def Nth {β : Type} : Supply β → Nat → β → Prop
  | .rest l, i, b => l[i]? = some b
  | .always a, _, b => b = a

/-- The values for the `i`-th label. -/
def NthChoice (p : SynthParams α) (i : Nat) (q : SynthChoice α) : Prop :=
  Nth p.trust i q.trust ∧ Nth p.numVariables i q.numVariables ∧
  Nth p.claimProbability i q.claimProbability ∧ Nth p.domainSize i q.domainSize

/-- A trust vector for a repetition: the array itself, or what the function returns. -/
inductive TrustFrom : TrustParam α → Nat → Vec α → Nat → Prop
  | array (t : Vec α) (k : Nat) : TrustFrom (.array t) k t k
  | draw (f : Rand (Vec α)) (k : Nat) (t : Vec α) (k' : Nat) : f k = .ok (t, k') → TrustFrom (.draw f) k t k'

/-- `s` is a synthetic dataset with the chosen parameters, made with the random numbers from the
`k`-th on and before the `k'`-th. -/
def MadeWith (g : Rng α) (q : SynthChoice α) (k : Nat) (s : SupervisedMatrix Nat α) (k' : Nat) : Prop :=
  ∃ t km, TrustFrom q.trust k t km ∧
    synthNew g ⟨some t, q.numVariables, q.claimProbability, q.domainSize⟩ km = .ok (s, k')

/-- `a` is the accuracy of an algorithm on a dataset (in the `c`-th run). -/
def AccuracyAt (env : TrialEnv α) (alg : AnyAlg α) (s : SupervisedMatrix Nat α) (c : Nat) (a : α) : Prop :=
  ∃ r, alg.run s.data.data env.fuel (env.clock c) = .ok r ∧ getAccuracy s.values (env.pick c) r = .ok a

/-- The results for one label: a list of `reps` numbers for every algorithm; the `j`-th numbers of all
algorithms are their accuracies on one and the same dataset, the `j`-th. -/
structure LabelTable (env : TrialEnv α) (algs : List (Text × AnyAlg α)) (reps : Nat) (q : SynthChoice α)
    (ks : Nat → Nat) (c : Nat) (res : Dict Text (List α)) : Prop where
  names : res.keys = algs.map Prod.fst
  full : ∀ p ∈ algs, ∃ accs, res.get? p.1 = some accs ∧ accs.length = reps
  entries : ∀ j < reps, ∃ s, MadeWith env.rng q (ks j) s (ks (j + 1)) ∧
    ∀ t p, algs[t]? = some p → ∃ accs a, res.get? p.1 = some accs ∧ accs[j]? = some a ∧
      AccuracyAt env p.2 s (c + j * algs.length + t) a

/-- Two sources claim different values for some variable whose true value is known. -/
def Contested (s : SupervisedMatrix Nat α) : Prop :=
  ∃ j v, s.values.get? j = some v ∧ ∃ i i' x y, x ≠ y ∧ Holds s.data.sv i j x ∧ Holds s.data.sv i' j y

/-- The part of a matrix in the first `n` rows and `m` columns holds `v` in row `i`, column `j`. -/
def CellOf {X : Type} (g : Grid X) (n m i j : Nat) (v : X) : Prop :=
  i < n ∧ j < m ∧ ∃ row, g[i]? = some row ∧ row[j]? = some (some v)

end TD.Spec
