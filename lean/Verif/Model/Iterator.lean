import Verif.Model.Arith
/-!
# `truthdiscovery/utils/iterator.py`
-/

namespace TD
variable {α : Type} [Arith α]

/-- `DistanceMeasures` (iterator.py:8-21). -/
inductive Measure
  | l1 | l2 | lInf | cosine
deriving DecidableEq, Repr

/-- `np.linalg.norm(v)` (2-norm): `sqrt(dot(v, v))`. -/
def norm2 (v : Vec α) : α := Arith.sqrt (Arith.dot v v)

/-- `np.clip(x, 0, 1)`: `minimum(maximum(x, 0), 1)`, NaN stays NaN. -/
def clip01 (x : α) : α :=
  if Arith.lt x (Arith.ofNat 0) then Arith.ofNat 0
  else if Arith.lt (Arith.ofNat 1) x then Arith.ofNat 1 else x

/-- `ConvergenceIterator.get_distance` (iterator.py:128-153).  `none` stands for
any object that is not a member of the enumeration.  `norm(ord=1)` is
`sum(abs(x))`, `norm(ord=inf)` is `max(abs(x))`. -/
def getDistance (m : Option Measure) (v w : Vec α) : Except PyErr α :=
  match m with
  | some .l1 => .ok (Arith.sum ((vzip Arith.sub v w).map Arith.abs))
  | some .l2 => .ok (norm2 (vzip Arith.sub v w))
  | some .lInf => npMax ((vzip Arith.sub v w).map Arith.abs)
  | some .cosine =>
    let n1 := norm2 v
    let n2 := norm2 w
    if Arith.eq n1 (Arith.ofNat 0) || Arith.eq n2 (Arith.ofNat 0) then .ok (Arith.ofNat 1)
    else .ok (clip01 (Arith.ofNat 1 -. (Arith.dot v w /. (n1 *. n2))))
  | none => .error .valueError

/-- Order used by `np.argsort`: ascending, NaN last. -/
def sortLe (a b : α) : Bool := !(Arith.lt b a) && !(isNan a && !(isNan b))

/-- `v[np.argsort(v)]`: the sorted values (insertion sort; which of two equal
entries comes first cannot be observed in the values). -/
def insertSorted (a : α) : List α → List α
  | [] => [a]
  | b :: bs => if sortLe a b then a :: b :: bs else b :: insertSorted a bs

/-- See `insertSorted`. -/
def npSort (v : Vec α) : Vec α := v.foldr insertSorted []

/-- Dictionary lookup with float keys: compares with `==`, so NaN is never found
(each NaN element of a numpy array is a fresh object). -/
def rankLookup (m : List (α × Nat)) (x : α) : Option Nat :=
  (m.find? (fun p => Arith.eq p.1 x)).map Prod.snd

/-- Loop building `rank_mapping` over the sorted scores (iterator.py:189-194);
`prev` is `sorted_scores[i - 1]`.  Assigning an existing key again keeps the old
key with the same rank, so prepending the newest binding is equivalent for
lookups. -/
def rankLoop : Option α → Nat → List (α × Nat) → List α → List (α × Nat)
  | _, _, m, [] => m
  | prev, rank, m, x :: xs =>
    let rank := match prev with
      | some p => if Arith.lt p x then rank + 1 else rank
      | none => rank
    rankLoop (some x) rank ((x, rank) :: m) xs

/-- `OrdinalConvergenceIterator.get_ranking_vector` (iterator.py:183-198);
returns integer ranks (the code stores them in a float array). -/
def rankingVector (v : Vec α) : Except PyErr (List Nat) :=
  let m := rankLoop none 0 [] (npSort v)
  v.mapM fun x => match rankLookup m x with
    | some r => .ok r
    | none => .error .keyError

/-- Configuration of an iterator object: `FixedIterator` (iterator.py:51-68),
`ConvergenceIterator` (71-126), `OrdinalConvergenceIterator` (156-202). -/
inductive IterCfg (α : Type)
  | fixed (limit : Int)
  | conv (measure : Option Measure) (threshold : α) (limit : Int)
  | ord (threshold : Int)

/-- `FixedIterator.__init__` (iterator.py:57-65). -/
def mkFixed (limit : Option Int) : Except PyErr (IterCfg α) :=
  match limit with
  | none => .ok (.fixed 20)
  | some l => if l < 0 then .error .valueError else .ok (.fixed l)

/-- `ConvergenceIterator.__init__` (iterator.py:82-97); class defaults
`threshold = 0.0001`, `limit = 1000000`. -/
def mkConv (measure : Option Measure) (threshold : Option α) (limit : Option Int) : IterCfg α :=
  .conv measure (threshold.getD (Arith.lit 1 10000)) (limit.getD 1000000)

/-- `OrdinalConvergenceIterator.__init__` (iterator.py:164-167). -/
def mkOrd (threshold : Option Int) : IterCfg α := .ord (threshold.getD 20)

/-- Mutable attributes of an iterator: `it_count`, `current_distance`,
`current_count`. -/
structure IterState (α : Type) where
  itCount : Nat := 0
  dist : Option α := none
  count : Nat := 0

/-- `reset` (iterator.py:44-48, 99-101, 200-202). -/
def IterCfg.reset (_ : IterCfg α) (_ : IterState α) : IterState α := {}

/-- `self.current_distance is not None and self.current_distance < self.threshold`
(iterator.py:118-120). -/
def IterState.below (s : IterState α) (threshold : α) : Bool :=
  match s.dist with
  | some d => Arith.lt d threshold
  | none => false

/-- `finished` (iterator.py:67-68, 114-126, 180-181). -/
def IterCfg.finished (c : IterCfg α) (s : IterState α) : Except PyErr Bool :=
  match c with
  | .fixed limit => .ok (decide ((s.itCount : Int) ≥ limit))
  | .conv _ threshold limit =>
    if s.below threshold then .ok true
    else if (s.itCount : Int) ≥ limit then .error .convergence
    else .ok false
  | .ord threshold => .ok (decide ((s.count : Int) ≥ threshold))

/-- `compare` (iterator.py:30-36, 103-110, 169-177).  Simplification: `np.all(r1 == r2)` is equality of lists, as for vectors of
the same length (all algorithms compare vectors of the same length). -/
def IterCfg.compare (c : IterCfg α) (s : IterState α) (v w : Vec α) :
    Except PyErr (IterState α) :=
  let s := { s with itCount := s.itCount + 1 }
  match c with
  | .fixed _ => .ok s
  | .conv m _ _ => do
    let d ← getDistance m v w
    return { s with dist := some d }
  | .ord _ => do
    let r1 ← rankingVector v
    let r2 ← rankingVector w
    return { s with count := if r1 = r2 then s.count + 1 else 0 }

/-- The attributes after a call of `compare`, also if it raises: `it_count` has been incremented before (iterator.py:36,
107, 170). -/
def IterCfg.after (c : IterCfg α) (s : IterState α) (v w : Vec α) : IterState α :=
  match c.compare s v w with
  | .ok s => s
  | .error _ => { s with itCount := s.itCount + 1 }

end TD
