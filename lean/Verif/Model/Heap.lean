import Verif.Model.Result
/-!
# `Result.filter` with mutable, possibly shared dictionaries

Python dictionaries are objects in a heap; a `Result` refers to them.  An address
is an index into the heap.
-/

namespace TD

/-- Dictionary objects a `Result` refers to. -/
inductive Obj (S V X α : Type)
  | trust (d : Dict S α)
  /-- belief dictionary: variable to the address of its inner dictionary -/
  | outer (d : Dict V Nat)
  | inner (d : Dict X α)

/-- All dictionary objects. -/
abbrev Heap (S V X α : Type) := List (Obj S V X α)

/-- The dictionary attributes of a `Result` object (result.py:23-26), as
references. -/
structure RObj where
  trust : Nat
  belief : Nat

variable {S V X α : Type} [DecidableEq S] [DecidableEq V] [DecidableEq X]

/-- Content of a trust dictionary (`[]` for an address of something else, which
does not occur). -/
def Heap.trustAt (h : Heap S V X α) (a : Nat) : Dict S α :=
  match h[a]? with
  | some (.trust d) => d
  | _ => []

/-- Content of a belief dictionary. -/
def Heap.outerAt (h : Heap S V X α) (a : Nat) : Dict V Nat :=
  match h[a]? with
  | some (.outer d) => d
  | _ => []

/-- Content of an inner belief dictionary. -/
def Heap.innerAt (h : Heap S V X α) (a : Nat) : Dict X α :=
  match h[a]? with
  | some (.inner d) => d
  | _ => []

/-- What a user reads from a result: its trust and (nested) belief scores. -/
def Heap.view (h : Heap S V X α) (r : RObj) : Dict S α × Dict V (Dict X α) :=
  (h.trustAt r.trust, (h.outerAt r.belief).map fun p => (p.1, h.innerAt p.2))

/-- `copy.deepcopy(belief)` (result.py:63): new inner dictionaries, then a new
outer one.  Simplification: an inner dictionary occurring under two variables is
copied twice. -/
def Heap.copyBelief (h : Heap S V X α) (a : Nat) : Heap S V X α × Nat :=
  let d := h.outerAt a
  let h' := h ++ d.map fun p => .inner (h.innerAt p.2)
  (h' ++ [.outer ((enum d).map fun p => (p.2.1, h.length + p.1))], h'.length)

/-- `Result.filter` (result.py:44-66) on objects: `dict(filter_dict(..))` makes a
new dictionary holding the same values, i.e. *references* to the same inner
dictionaries. -/
def Heap.filter (h : Heap S V X α) (r : RObj) (sources : Option (List S))
    (variables : Option (List V)) : Heap S V X α × RObj :=
  let t : Dict S α := match sources with
    | some ks => filterDict (h.trustAt r.trust) ks
    | none => h.trustAt r.trust
  let at' := h.length
  let h := h ++ [.trust t]
  match variables with
  | some ks =>
    (h ++ [.outer (filterDict (h.outerAt r.belief) ks)], ⟨at', h.length⟩)
  | none =>
    let hb := h.copyBelief r.belief
    (hb.1, ⟨at', hb.2⟩)

/-- What a user can do to the dictionaries of a result: change the trust
dictionary, change the inner dictionary of a variable, assign a new dictionary to
a variable, or remove a variable. -/
inductive Mutation (S V X α : Type)
  | trust (f : Dict S α → Dict S α)
  | inner (v : V) (f : Dict X α → Dict X α)
  | assign (v : V) (d : Dict X α)
  | del (v : V)

/-- Effect of a mutation of the result `r` on the heap. -/
def Heap.mutate (h : Heap S V X α) (r : RObj) : Mutation S V X α → Heap S V X α
  | .trust f => h.set r.trust (.trust (f (h.trustAt r.trust)))
  | .inner v f =>
    match (h.outerAt r.belief).get? v with
    | some a => h.set a (.inner (f (h.innerAt a)))
    | none => h
  | .assign v d =>
    let h' := h ++ [.inner d]
    h'.set r.belief (.outer ((h.outerAt r.belief).set v h.length))
  | .del v => h.set r.belief (.outer ((h.outerAt r.belief).filter fun p => !decide (p.1 = v)))

end TD
