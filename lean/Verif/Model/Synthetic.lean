import Verif.Model.Supervised
/-!
# `truthdiscovery/input/synthetic_data.py`

The random generator is an oracle: `draw k` is what the `k`-th call would give.
Every theorem is about every oracle.
-/

namespace TD

/-- The random numbers numpy will deliver: the `k`-th call of `random_sample`
returns `unit k` (also used inside `choice`); if the `k`-th call is for an integer
below `n` it returns `int k % n`. -/
structure Rng (α : Type) where
  unit : Nat → α
  int : Nat → Nat

/-- Code that draws random numbers: the state is the number of draws so far. -/
abbrev Rand (β : Type) := Nat → Except PyErr (β × Nat)

namespace Rand
variable {β γ : Type}
/-- Sequential composition. -/
def bind (x : Rand β) (f : β → Rand γ) : Rand γ := fun k =>
  match x k with
  | .error e => .error e
  | .ok (b, k) => f b k
instance : Monad Rand where
  pure b := fun k => .ok (b, k)
  bind := bind
/-- Raise an exception. -/
def raise (e : PyErr) : Rand β := fun _ => .error e
end Rand

variable {α : Type} [Arith α]

/-- `np.random.random_sample()` -/
def Rng.sample (g : Rng α) : Rand α := fun k => .ok (g.unit k, k + 1)

/-- `np.random.randint(0, n)`: `ValueError` unless `0 < n`. -/
def Rng.randint (g : Rng α) (n : Int) : Rand Nat := fun k =>
  if n ≤ 0 then .error .valueError else .ok (g.int k % n.toNat, k + 1)

/-- `m` integers below `n`: `np.random.randint(0, n, size=(m,))`; a negative size
is a `ValueError`. -/
def Rng.randints (g : Rng α) (n : Int) : Nat → Rand (List Nat)
  | 0 => Pure.pure []
  | m + 1 => do
    let x ← g.randint n
    let xs ← Rng.randints g n m
    Pure.pure (x :: xs)

/-- Running totals: `np.cumsum`. -/
def cumsum (acc : α) : List α → List α
  | [] => []
  | p :: ps => (acc +. p) :: cumsum (acc +. p) ps

/-- `cdf.searchsorted(u, side="right")` on a sorted array: the number of leading
entries that are `<= u`. -/
def searchRight (cdf : List α) (u : α) : Nat := (cdf.takeWhile fun c => Arith.le c u).length

/-- Last entry of a vector. -/
def lastOr (d : α) (v : List α) : α := v.getLastD d

/-- One step of Kahan's compensated summation (numpy `kahan_sum`): the state is the sum and the
compensation. -/
def kahanStep (s : α × α) (x : α) : α × α :=
  let y := x -. s.2
  let t := s.1 +. y
  (t, (t -. s.1) -. y)

/-- numpy's `kahan_sum`, which `choice` uses to check the probabilities. -/
def kahanSum : List α → α
  | [] => Arith.ofNat 0
  | x :: p => (p.foldl kahanStep (x, Arith.ofNat 0)).1

/-- `np.random.choice(range(len(p)), p=p)` (numpy 1.24 `RandomState.choice`): the compensated sum
must not be NaN, probabilities must be non-negative and sum to 1 up to the square root of the machine
epsilon, `2 ** -26` (`ValueError`); the cumulative sums are divided by the last and searched
for a uniform number. -/
def Rng.choice (g : Rng α) (p : List α) : Rand Nat := do
  let total := kahanSum p
  if isNan total then Rand.raise .valueError
  else if p.any (fun x => Arith.lt x (Arith.ofNat 0)) then Rand.raise .valueError
  else if Arith.lt (Arith.lit 1 67108864) (Arith.abs (total -. Arith.ofNat 1)) then
    Rand.raise .valueError
  else
    let cdf := cumsum (Arith.ofNat 0) p
    let cdf := cdf.map (· /. lastOr (Arith.ofNat 1) cdf)
    let u ← g.sample
    Pure.pure (searchRight cdf u)

/-- `prob_dist` of `generate_claim` (synthetic_data.py:84-86). -/
def claimWeights (trust : α) (trueValue domain : Nat) : List α :=
  let wrong := (Arith.ofNat 1 -. trust) /. Arith.ofNat (domain - 1)
  (List.replicate domain wrong).set trueValue trust

/-- `SyntheticData.generate_claim` (synthetic_data.py:72-88). -/
def generateClaim (g : Rng α) (trust : α) (trueValue domain : Nat) : Rand Nat :=
  g.choice (claimWeights trust trueValue domain)

/-- `sv_mat[i, j] = v` on a masked array: stores and unmasks. -/
def Grid.put (sv : Grid Nat) (i j : Nat) (v : Nat) : Grid Nat :=
  sv.modify i fun row => row.set j (some v)

/-- Loop over the sources for one variable (synthetic_data.py:46-51); the state is
`claim_made` and the matrix. -/
def synthSources (g : Rng α) (prob : α) (domain var trueValue : Nat) :
    List (Nat × α) → Bool × Grid Nat → Rand (Bool × Grid Nat)
  | [], acc => Pure.pure acc
  | (source, t) :: rest, acc => do
    let u ← g.sample
    if Arith.le u prob then
      let v ← generateClaim g t trueValue domain
      synthSources g prob domain var trueValue rest (true, Grid.put acc.2 source var v)
    else synthSources g prob domain var trueValue rest acc

/-- Make sure a claim is made about the variable (synthetic_data.py:52-57). -/
def synthEnsure (g : Rng α) (trust : Vec α) (domain var trueValue : Nat)
    (acc : Bool × Grid Nat) : Rand (Grid Nat) :=
  if acc.1 then Pure.pure acc.2
  else do
    let source ← g.randint trust.length
    let v ← generateClaim g (trust.at source) trueValue domain
    Pure.pure (Grid.put acc.2 source var v)

/-- Loop over the variables (synthetic_data.py:44-57). -/
def synthVars (g : Rng α) (trust : Vec α) (prob : α) (domain : Nat) :
    List (Nat × Nat) → Grid Nat → Rand (Grid Nat)
  | [], sv => Pure.pure sv
  | (var, trueValue) :: rest, sv => do
    let acc ← synthSources g prob domain var trueValue (enum trust) (false, sv)
    let sv ← synthEnsure g trust domain var trueValue acc
    synthVars g trust prob domain rest sv

/-- Make sure all sources make a claim (synthetic_data.py:59-65); `rows` are the
indices still to be visited. -/
def synthRows (g : Rng α) (trust : Vec α) (trueValues : List Nat) (domain : Nat) :
    List Nat → Grid Nat → Rand (Grid Nat)
  | [], sv => Pure.pure sv
  | source :: rest, sv =>
    if (sv.getD source []).all Option.isNone then do
      let var ← g.randint trueValues.length
      let v ← generateClaim g (trust.at source) (trueValues.getD var 0) domain
      synthRows g trust trueValues domain rest (Grid.put sv source var v)
    else synthRows g trust trueValues domain rest sv

/-- Arguments of `SyntheticData`. -/
structure SynthArgs (α : Type) where
  /-- `none`: an array that is not one dimensional -/
  trust : Option (Vec α)
  numVariables : Int
  claimProbability : α
  domainSize : Int

/-- What the constructor computes before it builds the dataset. -/
structure SynthOut where
  sv : Grid Nat
  trueValues : List Nat

/-- `SyntheticData.__init__` (synthetic_data.py:14-65) up to the dataset.  Values
are natural numbers; that the masked array stores them as floats cannot be observed
(`2 == 2.0`). -/
def synthMake (g : Rng α) (a : SynthArgs α) : Rand SynthOut :=
  match a.trust with
  | none => Rand.raise .valueError
  | some trust =>
    if trust.length = 0 then Rand.raise .valueError
    else if trust.any isNan || trust.any (fun t => Arith.lt t (Arith.ofNat 0)) ||
        trust.any (fun t => Arith.lt (Arith.ofNat 1) t) then Rand.raise .valueError
    else if Arith.le a.claimProbability (Arith.ofNat 0) ||
        Arith.lt (Arith.ofNat 1) a.claimProbability then Rand.raise .valueError
    else if a.domainSize ≤ 1 then Rand.raise .valueError
    else if a.numVariables < 0 then Rand.raise .valueError
    else do
      let domain := a.domainSize.toNat
      let trueValues ← g.randints a.domainSize a.numVariables.toNat
      let sv : Grid Nat :=
        List.replicate trust.length (List.replicate a.numVariables.toNat none)
      let sv ← synthVars g trust a.claimProbability domain (enum trueValues) sv
      let sv ← synthRows g trust trueValues domain (List.range trust.length) sv
      Pure.pure { sv, trueValues }

/-- The finished object (synthetic_data.py:67-70): a `MatrixDataset` and the true
values keyed by column. -/
def synthNew (g : Rng α) (a : SynthArgs α) : Rand (SupervisedMatrix Nat α) := do
  let o ← synthMake g a
  match MatrixDataset.mk' (α := α) (.two o.sv) with
  | .error e => Rand.raise e.toPy
  | .ok d => Pure.pure { data := d, values := Dict.ofPairs (enum o.trueValues) }

/-- `SyntheticData.to_csv` (synthetic_data.py:90-101): a first row with the true
values, missing if not known, then the matrix. -/
def synthToCsv (str : Nat → Text) (s : SupervisedMatrix Nat α) : Text :=
  let cols := (s.data.sv.headD []).length
  let first := s.values.foldl (fun (row : List (Option Nat)) p => row.set p.1 (some p.2))
    (List.replicate cols none)
  gridToCsv str (first :: s.data.sv)

end TD
