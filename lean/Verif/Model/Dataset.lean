import Verif.Model.Arith
/-!
# `truthdiscovery/input/dataset.py`
-/

namespace TD

/-- `IDMapping` (dataset.py:7-21), a `bidict` from labels to integer ids. -/
abbrev IDMap (κ : Type) := Dict κ Nat

namespace IDMap
variable {κ : Type} [DecidableEq κ]

/-- `mapping.inverse[i]` (bidict), raising `KeyError` if no label has id `i`. -/
def inv (m : IDMap κ) (i : Nat) : Except PyErr κ :=
  match m.find? (fun p => p.2 == i) with
  | some p => .ok p.1
  | none => .error .keyError

/-- `mapping[label] = i` on a bidict: raises `ValueDuplicationError` if another
label already has the value `i`. -/
def put (m : IDMap κ) (label : κ) (i : Nat) : Except PyErr (IDMap κ) :=
  if m.any (fun p => p.2 == i && !decide (p.1 = label)) then .error .valueDuplication
  else .ok (m.set label i)

/-- `IDMapping.get_id` (dataset.py:11-21); returns the id and the new mapping. -/
def getId (m : IDMap κ) (label : κ) (insert : Bool := true) : Except PyErr (Nat × IDMap κ) := do
  let m' ← if !(m.has label) && insert then m.put label m.length else pure m
  let i ← m'.get label
  return (i, m')

/-- A sequence of calls `m.get_id(label, insert)` on one mapping (dataset.py:11-21):
the answers, and the mapping afterwards.  A call that raises leaves the mapping as it
was: the only statement that changes it, `self[label] = len(self)`, comes before the
lookup, and when it is executed the lookup finds the label. -/
def calls : IDMap κ → List (κ × Bool) → List (Except PyErr Nat) × IDMap κ
  | m, [] => ([], m)
  | m, c :: cs => match m.getId c.1 c.2 with
    | .ok (i, m') => (.ok i :: (calls m' cs).1, (calls m' cs).2)
    | .error e => (.error e :: (calls m cs).1, (calls m cs).2)

end IDMap

/-- Errors of the `Dataset` constructor. -/
inductive DatasetErr (S V : Type)
  /-- `ValueError("Source '{}' claimed more than one value for variable '{}'")`
  (dataset.py:94-98) -/
  | multiple (source : S) (var : V)
  /-- `ValueError("Implication values must be in [-1, 1]")` (dataset.py:155-157) -/
  | implication
  /-- anything else (proved impossible) -/
  | py (e : PyErr)
deriving DecidableEq

/-- Local variables of the triple loop (dataset.py:63-82). -/
structure Build (S V X : Type) where
  sourceIds : IDMap S := []
  varIds : IDMap V := []
  valHashes : IDMap X := []
  claimIds : IDMap (Nat × Nat) := []
  /-- keys of `source_var_pairs` -/
  pairs : List (Nat × Nat) := []
  /-- `zip(sc_rows, sc_cols)` -/
  sc : List (Nat × Nat) := []
  /-- `mut_ex_claims`: variable id to the set of claim ids -/
  mutEx : Dict Nat (List Nat) := []

/-- The matrices and sizes algorithms work with (attributes of `Dataset`). -/
structure Mats (α : Type) where
  numSources : Nat
  numClaims : Nat
  sc : Mat α
  mutEx : Mat α
  imp : Mat α

/-- A constructed `Dataset` (dataset.py:24-170). -/
structure Dataset (S V X α : Type) where
  sourceIds : IDMap S
  varIds : IDMap V
  valHashes : IDMap X
  claimIds : IDMap (Nat × Nat)
  numVariables : Nat
  mats : Mats α

variable {S V X α : Type} [DecidableEq S] [DecidableEq V] [DecidableEq X] [Arith α]

/-- Lift a Python error. -/
def liftPy {β : Type} : Except PyErr β → Except (DatasetErr S V) β
  | .ok b => .ok b
  | .error e => .error (.py e)

/-- Body of the loop over triples (dataset.py:84-107). -/
def Build.step (allowMultiple : Bool) (b : Build S V X) (t : S × V × X) :
    Except (DatasetErr S V) (Build S V X) := do
  let (sId, sourceIds) ← liftPy (b.sourceIds.getId t.1)
  let (varId, varIds) ← liftPy (b.varIds.getId t.2.1)
  let (valHash, valHashes) ← liftPy (b.valHashes.getId t.2.2)
  let b := { b with sourceIds, varIds, valHashes }
  if (sId, varId) ∈ b.pairs then
    if allowMultiple then
      return b
    else
      let s ← liftPy (b.sourceIds.inv sId)
      let v ← liftPy (b.varIds.inv varId)
      throw (.multiple s v)
  else
    let b := { b with pairs := b.pairs ++ [(sId, varId)] }
    let (claimId, claimIds) ← liftPy (b.claimIds.getId (varId, valHash))
    let cur := if b.mutEx.has varId then (b.mutEx.get? varId).getD [] else []
    return { b with
      claimIds
      sc := b.sc ++ [(sId, claimId)]
      mutEx := b.mutEx.set varId (setAdd cur claimId) }

/-- The loop over all triples (dataset.py:84-107). -/
def Build.run (allowMultiple : Bool) (triples : List (S × V × X)) :
    Except (DatasetErr S V) (Build S V X) :=
  triples.foldlM (Build.step allowMultiple) {}

/-- Source-claim matrix (dataset.py:115-118). -/
def Build.scMat (b : Build S V X) : Mat α :=
  Mat.csr (b.sc.map fun p => (p.1, p.2, Arith.ofNat 1)) b.sourceIds.length b.claimIds.length

/-- Mutual exclusion matrix (dataset.py:122-132); the order in which a Python
set is iterated does not matter to `csr`. -/
def Build.mutExMat (b : Build S V X) : Mat α :=
  Mat.csr (b.mutEx.values.flatMap fun ids =>
      ids.flatMap fun i => ids.map fun j => (i, j, Arith.ofNat 1))
    b.claimIds.length b.claimIds.length

/-- One iteration of the implication loop (dataset.py:140-160). -/
def Build.impStep (b : Build S V X) (f : V → X → X → Option α)
    (acc : List (Nat × Nat × α)) (e : Nat × Nat) :
    Except (DatasetErr S V) (List (Nat × Nat × α)) := do
  if e.1 = e.2 then return acc
  let c1 ← liftPy (b.claimIds.inv e.1)
  let c2 ← liftPy (b.claimIds.inv e.2)
  let var ← liftPy (b.varIds.inv c1.1)
  let val1 ← liftPy (b.valHashes.inv c1.2)
  let val2 ← liftPy (b.valHashes.inv c2.2)
  match f var val1 val2 with
  | none => return acc
  | some x =>
    if Arith.lt x (Arith.lit (-1) 1) || Arith.lt (Arith.lit 1 1) x then throw .implication
    else return acc ++ [(e.1, e.2, x)]

/-- Implication matrix (dataset.py:134-170).  Simplification: the implication
function is pure and total. -/
def Build.impMat (b : Build S V X) (f : Option (V → X → X → Option α)) :
    Except (DatasetErr S V) (Mat α) := do
  let entries ← match f with
    | none => pure []
    | some f => (b.mutExMat (α := α)).nonzero.foldlM (b.impStep f) []
  if entries.isEmpty then return Mat.csr [] b.claimIds.length b.claimIds.length
  else return Mat.csr entries b.claimIds.length b.claimIds.length

/-- `Dataset.__init__` (dataset.py:49-170). -/
def Dataset.mk' (triples : List (S × V × X)) (allowMultiple : Bool := false)
    (f : Option (V → X → X → Option α) := none) :
    Except (DatasetErr S V) (Dataset S V X α) := do
  let b ← Build.run allowMultiple triples
  let imp ← b.impMat f
  return {
    sourceIds := b.sourceIds
    varIds := b.varIds
    valHashes := b.valHashes
    claimIds := b.claimIds
    numVariables := b.varIds.length
    mats := {
      numSources := b.sourceIds.length
      numClaims := b.claimIds.length
      sc := b.scMat
      mutEx := b.mutExMat
      imp := imp } }

/-- `Dataset.get_belief_dict` (dataset.py:172-189). -/
def Dataset.beliefDict (d : Dataset S V X α) (beliefs : Vec α) :
    Except PyErr (Dict V (Dict X α)) :=
  (enum beliefs).foldlM (fun acc p => do
    let c ← d.claimIds.inv p.1
    let var ← d.varIds.inv c.1
    let val ← d.valHashes.inv c.2
    let acc := if acc.has var then acc else acc.set var []
    return acc.set var (((acc.get? var).getD []).set val p.2)) []

/-- `Dataset.get_source_trust_dict` (dataset.py:191-200). -/
def Dataset.trustDict (d : Dataset S V X α) (trust : Vec α) : Except PyErr (Dict S α) :=
  (enum trust).foldlM (fun acc p => do
    let s ← d.sourceIds.inv p.1
    return acc.set s p.2) []

/-- `Dataset.num_connected_components` (dataset.py:202-229).  `row.nonzero()[1]`
are the columns of the stored non-zero entries of the row. -/
def Dataset.numConnectedComponents (d : Dataset S V X α) : Except PyErr Nat := do
  let r ← d.mats.sc.rows.foldlM (fun (acc : List Nat × Nat) row => do
    let js := row.filterMap fun e =>
      if Arith.eq e.2 (Arith.ofNat 0) then none else some e.1
    let varIds ← js.mapM fun j => do
      let c ← d.claimIds.inv j
      return c.1
    let comps := if acc.1.any (fun v => v ∈ varIds) then acc.2 else acc.2 + 1
    return (acc.1 ++ varIds, comps)) ([], 0)
  return r.2

end TD
