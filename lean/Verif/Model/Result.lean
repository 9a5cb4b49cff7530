import Verif.Model.Algorithm
/-!
# `truthdiscovery/output/result.py`, `truthdiscovery/output/diff.py` and
`filter_dict` of `truthdiscovery/utils/__init__.py`
-/

namespace TD

/-- One insertion of a stable sort: `x` goes after all items it is not smaller
than. -/
def insertBy {β : Type} (lt : β → β → Bool) (x : β) : List β → List β
  | [] => [x]
  | y :: ys => if lt x y then x :: y :: ys else y :: insertBy lt x ys

/-- Python's `sorted(l, key=..)`, `lt` comparing the keys of two items.  All
stable sorts agree when `lt` is a strict weak order; what `sorted` does with NaN
keys is not modelled (the theorems exclude NaN). -/
def pySorted {β : Type} (lt : β → β → Bool) (l : List β) : List β :=
  l.foldl (fun acc x => insertBy lt x acc) []

/-- `dict(filter_dict(dct, keys))` (utils/__init__.py:10-18, result.py:61). -/
def filterDict {κ ν : Type} [DecidableEq κ] (d : Dict κ ν) (keys : List κ) : Dict κ ν :=
  Dict.ofPairs (keys.filterMap fun k => (d.get? k).map fun v => (k, v))

variable {S V X α : Type} [DecidableEq S] [DecidableEq V] [DecidableEq X] [Arith α]

/-- `list(result.get_most_believed_values(var))` (result.py:28-42). -/
def Result.mostBelieved (r : Result S V X α) (var : V) : Except PyErr (List X) := do
  let items ← r.belief.get var
  let sorted := pySorted (fun p q => Arith.lt (Arith.neg p.2) (Arith.neg q.2)) items
  match sorted with
  | [] => throw .indexError
  | p :: _ => return (sorted.takeWhile fun q => !(Arith.lt q.2 p.2)).map Prod.fst

/-- `Result.filter` (result.py:44-66) as far as values are concerned; sharing of
dictionaries is modelled in `Verif/Model/Heap.lean`. -/
def Result.filter (r : Result S V X α) (sources : Option (List S))
    (variables : Option (List V)) : Result S V X α where
  trust := match sources with
    | some ks => filterDict r.trust ks
    | none => r.trust
  belief := match variables with
    | some ks => filterDict r.belief ks
    | none => r.belief
  time := r.time
  iterations := r.iterations

/-- `Result._get_stats` (result.py:68-75): `np.mean` is `sum / n`, `np.std` is
`sqrt(sum((x - mean) ** 2) / n)`. -/
def getStats {κ : Type} (d : Dict κ α) : α × α :=
  let v := d.values
  let n : α := Arith.ofNat v.length
  let mean := Arith.sum v /. n
  (mean, Arith.sqrt (Arith.sum (v.map fun x => (x -. mean) *. (x -. mean)) /. n))

/-- `Result.get_trust_stats` (result.py:77-82). -/
def Result.trustStats (r : Result S V X α) : α × α := getStats r.trust

/-- `Result.get_belief_stats` (result.py:84-92). -/
def Result.beliefStats (r : Result S V X α) : Dict V (α × α) :=
  Dict.ofPairs (r.belief.map fun p => (p.1, getStats p.2))

/-- `ResultDiff` (output/diff.py:1-33). -/
structure Diff (S V X α : Type) where
  trust : Dict S α
  belief : Dict V (Dict X α)
  time : α
  iterations : Option Int

/-- `set(keys1).intersection(keys2)`, listed in the order `ord` in which Python
happens to iterate over the set. -/
def common {κ : Type} [DecidableEq κ] (ord : List κ → List κ) (k1 k2 : List κ) : List κ :=
  ord (k1.filter fun k => k ∈ k2)

/-- `for k in common: diffs[k] = d2[k] - d1[k]` (diff.py:13-17, 24-27). -/
def diffDict {κ : Type} [DecidableEq κ] (ord : List κ → List κ) (d1 d2 : Dict κ α) :
    Except PyErr (Dict κ α) :=
  (common ord d1.keys d2.keys).foldlM (fun (acc : Dict κ α) k => do
    let x2 ← d2.get k
    let x1 ← d1.get k
    return acc.set k (x2 -. x1)) []

/-- `ResultDiff.__init__` (diff.py:7-33); `ordS`, `ordV`, `ordX` are the iteration
orders of the sets of common sources, variables and values. -/
def resultDiff (ordS : List S → List S) (ordV : List V → List V) (ordX : List X → List X)
    (r1 r2 : Result S V X α) : Except PyErr (Diff S V X α) := do
  let trust ← diffDict ordS r1.trust r2.trust
  let belief ← (common ordV r1.belief.keys r2.belief.keys).foldlM (fun (acc : Dict V (Dict X α)) v => do
    let b1 ← r1.belief.get v
    let b2 ← r2.belief.get v
    let diffs ← diffDict ordX b1 b2
    return if diffs.isEmpty then acc else acc.set v diffs) []
  return {
    trust, belief
    time := r2.time -. r1.time
    iterations := match r1.iterations, r2.iterations with
      | some i1, some i2 => some ((i2 : Int) - (i1 : Int))
      | _, _ => none }

end TD
