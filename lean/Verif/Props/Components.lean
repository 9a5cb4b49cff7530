import Verif.Props.Dataset
import Verif.Spec.Components
import Mathlib.Data.Fintype.Card
import Mathlib.Data.Set.Finite.Basic
import Mathlib.Data.Set.Card
/-!
# C08: `num_connected_components`

The method counts the sources that share no variable with an earlier source.
That is never less than the number of connected components, and equal to it
exactly when two such sources are never in the same component.
-/

namespace TD
open Spec
attribute [-instance] instBEqProd

variable {S V X α : Type} [DecidableEq S] [DecidableEq V] [DecidableEq X] [Arith α]

/-- Two sources have recorded claims about a common variable. -/
def Shares (l : List (S × V × X)) (s t : S) : Prop :=
  ∃ v x y, (s, v, x) ∈ recorded l ∧ (t, v, y) ∈ recorded l

/-- Source number `i` shares no variable with any source of a smaller number. -/
def Fresh (l : List (S × V × X)) (i : Nat) : Prop :=
  ∃ s, (sources l)[i]? = some s ∧ ∀ i' < i, ∀ s', (sources l)[i']? = some s' → ¬ Shares l s' s

/-- Variable ids of the claims of source `i`. -/
def rowVars (l : List (S × V × X)) (i : Nat) : List Nat :=
  ((List.range (claims l).length).filter fun j => scRel l i j).map fun j =>
    (((claims l).map (claimKey l)).getD j (0, 0)).1

theorem mem_rowVars (l : List (S × V × X)) {i : Nat} {s : S} (hs : (sources l)[i]? = some s)
    (k : Nat) : k ∈ rowVars l i ↔ ∃ v x, (s, v, x) ∈ recorded l ∧ (vars l).idxOf v = k := by
  simp only [rowVars, List.mem_map, List.mem_filter, List.mem_range]
  constructor
  · rintro ⟨j, ⟨hj, hr⟩, rfl⟩
    simp only [scRel, hs, List.getElem?_eq_getElem hj, decide_eq_true_eq] at hr
    refine ⟨_, _, hr, ?_⟩
    simp [hj, claimKey]
  · rintro ⟨v, x, hm, rfl⟩
    have hc : (v, x) ∈ claims l := (mem_claims l).2 ⟨_, hm, rfl⟩
    obtain ⟨j, hj, e⟩ := List.getElem_of_mem hc
    refine ⟨j, ⟨hj, ?_⟩, ?_⟩
    · simp [scRel, hs, hj, e, hm]
    · simp [hj, e, claimKey]

theorem shares_iff (l : List (S × V × X)) {i i' : Nat} {s s' : S} (hs : (sources l)[i]? = some s)
    (hs' : (sources l)[i']? = some s') :
    Shares l s' s ↔ ∃ k ∈ rowVars l i', k ∈ rowVars l i := by
  constructor
  · rintro ⟨v, x, y, h1, h2⟩
    exact ⟨_, (mem_rowVars l hs' _).2 ⟨v, x, h1, rfl⟩, (mem_rowVars l hs _).2 ⟨v, y, h2, rfl⟩⟩
  · rintro ⟨k, h1, h2⟩
    obtain ⟨v, x, hx, e1⟩ := (mem_rowVars l hs' _).1 h1
    obtain ⟨w, y, hy, e2⟩ := (mem_rowVars l hs _).1 h2
    have hv : v ∈ vars l := (mem_vars l).2 ⟨_, recorded_sub l hx, rfl⟩
    obtain rfl := idxOf_inj_of_mem hv (e1.trans e2.symm)
    exact ⟨v, x, y, hx, hy⟩

theorem mapM_claims (l : List (S × V × X)) (f : Option (V → X → X → Option α)) (L : List Nat)
    (hL : ∀ j ∈ L, j < (claims l).length) :
    (L.mapM fun j => do let c ← (datasetOf l f).claimIds.inv j; return c.1 : Except PyErr (List Nat)) =
      .ok (L.map fun j => (((claims l).map (claimKey l)).getD j (0, 0)).1) := by
  induction L with
  | nil => rfl
  | cons j L ih =>
    have hj := hL j (by simp)
    rw [List.mapM_cons, ih (fun k hk => hL k (by simp [hk]))]
    have hinv : (datasetOf l f).claimIds.inv j = .ok (claimKey l (claims l)[j]) := by
      simp [datasetOf, idmap_inv, hj]
    simp [hinv, bind, Except.bind, pure, Except.pure, hj]

/-- The value computed: the number of sources sharing no variable with an
earlier one (as a count over ids). -/
theorem numComponents_fold (h10 : Arith.eq (Arith.ofNat 1 : α) (Arith.ofNat 0) = false)
    (l : List (S × V × X)) (f : Option (V → X → X → Option α)) :
    ∃ P : Nat → Bool, (datasetOf l f).numConnectedComponents =
        .ok ((List.range (sources l).length).countP P) ∧
      ∀ i < (sources l).length, P i = true ↔ Fresh l i := by
  set P : Nat → Bool := fun i =>
    !(((List.range i).flatMap (rowVars l)).any fun v => v ∈ rowVars l i) with hP
  refine ⟨P, ?_, ?_⟩
  · have key : ∀ n ≤ (sources l).length,
        ((List.range n).map fun i => (List.range (claims l).length).filterMap fun j =>
          (oneIf (scRel l i j) : Option α).map fun v => (j, v)).foldlM
        (fun (acc : List Nat × Nat) row => do
          let js := row.filterMap fun e =>
            if Arith.eq e.2 (Arith.ofNat 0) then none else some e.1
          let varIds ← js.mapM fun j => do
            let c ← (datasetOf l f).claimIds.inv j
            return c.1
          let comps := if acc.1.any (fun v => v ∈ varIds) then acc.2 else acc.2 + 1
          return (acc.1 ++ varIds, comps)) (([], 0) : List Nat × Nat) =
        (Except.ok ((List.range n).flatMap (rowVars l), (List.range n).countP P) :
          Except PyErr (List Nat × Nat)) := by
      intro n hn
      induction n with
      | zero => rfl
      | succ n ih =>
        rw [List.range_succ, List.map_append, List.foldlM_append, ih (by omega)]
        have hjs : (((List.range (claims l).length).filterMap fun j =>
            (oneIf (scRel l n j) : Option α).map fun v => (j, v)).filterMap fun e =>
              if Arith.eq e.2 (Arith.ofNat 0) then none else some e.1) =
            (List.range (claims l).length).filter fun j => scRel l n j := by
          rw [List.filterMap_filterMap]
          induction List.range (claims l).length with
          | nil => rfl
          | cons k L ih =>
            by_cases h : scRel l n k = true
            · rw [List.filterMap_cons_some (b := k) (by simp [h, oneIf, h10]), ih,
                List.filter_cons_of_pos h]
            · rw [List.filterMap_cons_none (by simp [h, oneIf]), ih, List.filter_cons_of_neg h]
        have hmap := mapM_claims l f ((List.range (claims l).length).filter fun j => scRel l n j)
          (fun j hj => by simpa using (List.mem_filter.1 hj).1)
        simp only [List.map_cons, List.map_nil, List.foldlM_cons, List.foldlM_nil, hjs]
        simp only [bind, Except.bind] at hmap ⊢
        rw [hmap]
        simp only [pure, Except.pure, List.flatMap_append, List.flatMap_cons, List.flatMap_nil,
          List.append_nil, List.countP_append, Except.ok.injEq, Prod.mk.injEq]
        refine ⟨rfl, ?_⟩
        simp only [List.countP_cons, List.countP_nil, hP]
        show (if (((List.range n).flatMap (rowVars l)).any fun v => decide (v ∈ rowVars l n)) = true
          then _ else _) = _
        by_cases hany : (((List.range n).flatMap (rowVars l)).any fun v => decide (v ∈ rowVars l n)) = true
        · simp only [hany, ↓reduceIte, Bool.not_true, Bool.false_eq_true]; omega
        · simp only [hany, Bool.false_eq_true, ↓reduceIte, Bool.not_false]
    have := key (sources l).length le_rfl
    unfold Dataset.numConnectedComponents
    have hrows : (datasetOf l f).mats.sc.rows = (List.range (sources l).length).map fun i =>
        (List.range (claims l).length).filterMap fun j =>
          (oneIf (scRel l i j) : Option α).map fun v => (j, v) := rfl
    rw [hrows, this]
    rfl
  · intro i hi
    have hs := List.getElem?_eq_getElem hi
    simp only [hP, Bool.not_eq_true', Fresh, hs, Option.some.injEq, exists_eq_left']
    rw [← Bool.not_eq_true, List.any_eq_true]
    constructor
    · intro h i' hi' s' hs' hsh
      obtain ⟨k, h1, h2⟩ := (shares_iff l hs hs').1 hsh
      exact h ⟨k, List.mem_flatMap.2 ⟨i', by simpa using hi', h1⟩, by simpa using h2⟩
    · rintro h ⟨k, hk, hk2⟩
      obtain ⟨i', hi', hk1⟩ := List.mem_flatMap.1 hk
      have hi'' : i' < i := by simpa using hi'
      have hs' := List.getElem?_eq_getElem (show i' < (sources l).length by omega)
      exact h i' hi'' _ hs' ((shares_iff l hs hs').2 ⟨k, hk1, by simpa using hk2⟩)

theorem numComponents_card (h10 : Arith.eq (Arith.ofNat 1 : α) (Arith.ofNat 0) = false)
    (l : List (S × V × X)) (f : Option (V → X → X → Option α)) :
    (datasetOf l f).numConnectedComponents = .ok (Nat.card {i : Nat // Fresh l i}) := by
  classical
  obtain ⟨P, h1, h2⟩ := numComponents_fold h10 l f
  rw [h1]
  congr 1
  rw [List.countP_eq_length_filter]
  have hset : {i : Nat | Fresh l i} =
      (((List.range (sources l).length).filter P).toFinset : Set Nat) := by
    ext i
    simp only [Set.mem_setOf_eq, List.coe_toFinset, List.mem_filter, List.mem_range]
    constructor
    · rintro hf
      have hi : i < (sources l).length := by
        obtain ⟨s, hs, -⟩ := hf
        exact (List.getElem?_eq_some_iff.1 hs).1
      exact ⟨hi, (h2 i hi).2 hf⟩
    · rintro ⟨hi, hp⟩; exact (h2 i hi).1 hp
  have : Nat.card {i : Nat // Fresh l i} = Nat.card {i : Nat | Fresh l i} := rfl
  rw [this, hset, Nat.card_coe_set_eq, Set.ncard_coe_finset]
  exact (List.toFinset_card_of_nodup (List.nodup_range.filter _)).symm

/-- Node of a source. -/
def srcNode (l : List (S × V × X)) (i : {i : Nat // Fresh l i}) : {n : Node S V X // Present l n} :=
  ⟨.source ((sources l)[i.1]'(by
    obtain ⟨s, hs, -⟩ := i.2
    exact (List.getElem?_eq_some_iff.1 hs).1)), List.getElem_mem _⟩

theorem reach_of_claim (l : List (S × V × X)) {s : S} {v : V} {x : X} (h : (s, v, x) ∈ recorded l)
    (h1 : Present l (.source s)) (h2 : Present l (.claim v x)) :
    (graph l).Reachable ⟨.source s, h1⟩ ⟨.claim v x, h2⟩ :=
  SimpleGraph.Adj.reachable (by left; exact h)

theorem reach_of_var (l : List (S × V × X)) {v : V} {x : X}
    (h1 : Present l (.claim v x)) (h2 : Present l (.var v)) :
    (graph l).Reachable ⟨.claim v x, h1⟩ ⟨.var v, h2⟩ :=
  SimpleGraph.Adj.reachable (by left; rfl)

theorem reach_of_shares (l : List (S × V × X)) {s t : S} (h : Shares l s t)
    (h1 : Present l (.source s)) (h2 : Present l (.source t)) :
    (graph l).Reachable ⟨.source s, h1⟩ ⟨.source t, h2⟩ := by
  obtain ⟨v, x, y, hx, hy⟩ := h
  have c1 : Present l (.claim v x) := (mem_claims l).2 ⟨_, hx, rfl⟩
  have c2 : Present l (.claim v y) := (mem_claims l).2 ⟨_, hy, rfl⟩
  have hv : Present l (.var v) := (mem_vars l).2 ⟨_, recorded_sub l hx, rfl⟩
  exact (reach_of_claim l hx h1 c1).trans ((reach_of_var l c1 hv).trans
    ((reach_of_var l c2 hv).symm.trans (reach_of_claim l hy h2 c2).symm))

theorem srcNode_surjective (l : List (S × V × X)) :
    Function.Surjective fun i => (graph l).connectedComponentMk (srcNode l i) := by
  intro C
  -- some source lies in C
  have hsrc : ∃ s, ∃ h : Present l (.source s), (graph l).connectedComponentMk ⟨.source s, h⟩ = C := by
    induction C using SimpleGraph.ConnectedComponent.ind with
    | h n =>
      obtain ⟨n, hn⟩ := n
      cases n with
      | source s => exact ⟨s, hn, rfl⟩
      | claim v x =>
        obtain ⟨t, ht, e⟩ := (mem_claims l).1 hn
        have e1 : t = (t.1, v, x) := by rw [← e]
        rw [e1] at ht
        have hs : Present l (.source t.1) := (mem_sources l).2 ⟨_, recorded_sub l ht, rfl⟩
        exact ⟨t.1, hs, SimpleGraph.ConnectedComponent.sound (reach_of_claim l ht hs hn)⟩
      | var v =>
        obtain ⟨t, ht, e⟩ := (mem_vars l).1 hn
        obtain ⟨u, hu, -, h1⟩ := (recorded_pair_iff l).2 ⟨t, ht, rfl, rfl⟩
        have h1' : u.2.1 = v := h1.trans e
        subst h1'
        have hs : Present l (.source u.1) := (mem_sources l).2 ⟨_, recorded_sub l hu, rfl⟩
        have hc : Present l (.claim u.2.1 u.2.2) := (mem_claims l).2 ⟨_, hu, rfl⟩
        exact ⟨u.1, hs, SimpleGraph.ConnectedComponent.sound
          ((reach_of_claim l hu hs hc).trans (reach_of_var l hc hn))⟩
  classical
  have hex : ∃ i, ∃ hi : i < (sources l).length, (graph l).connectedComponentMk
      ⟨.source (sources l)[i], List.getElem_mem hi⟩ = C := by
    obtain ⟨s, hs, e⟩ := hsrc
    obtain ⟨i, hi, rfl⟩ := List.getElem_of_mem (show s ∈ sources l from hs)
    exact ⟨i, hi, e⟩
  obtain ⟨hi, hC⟩ := Nat.find_spec hex
  refine ⟨⟨Nat.find hex, _, List.getElem?_eq_getElem hi, ?_⟩, hC⟩
  intro i' hi' s' hs' hsh
  obtain ⟨hlt, rfl⟩ := List.getElem?_eq_some_iff.1 hs'
  refine Nat.find_min hex hi' ⟨hlt, ?_⟩
  rw [← hC]
  exact SimpleGraph.ConnectedComponent.sound (reach_of_shares l hsh _ _)

theorem finite_fresh (l : List (S × V × X)) : Finite {i : Nat // Fresh l i} := by
  refine Set.Finite.to_subtype (s := {i | Fresh l i}) (Set.Finite.subset (Set.finite_lt_nat (sources l).length) ?_)
  rintro i ⟨s, hs, -⟩
  exact (List.getElem?_eq_some_iff.1 hs).1

/-- **C08.** The result is never below the number of connected components. (The
full claim, equality, is false of the code: see the refutation below.) -/
theorem C08_components_lower_bound_partial
    (h10 : Arith.eq (Arith.ofNat 1 : α) (Arith.ofNat 0) = false)
    (l : List (S × V × X)) (am : Bool) (f : Option (V → X → X → Option α))
    (d : Dataset S V X α) (h : Dataset.mk' l am f = .ok d) :
    ∃ n, d.numConnectedComponents = .ok n ∧ components l ≤ n := by
  obtain ⟨rfl, -, -⟩ := (mk'_ok_iff l h10 am f d).1 h
  have := finite_fresh l
  exact ⟨_, numComponents_card h10 l f, Nat.card_le_card_of_surjective _ (srcNode_surjective l)⟩

/-- **C08.** It is correct exactly when no two sources of the same component
share no variable with any earlier source. -/
theorem C08_components_correct_iff
    (h10 : Arith.eq (Arith.ofNat 1 : α) (Arith.ofNat 0) = false)
    (l : List (S × V × X)) (am : Bool) (f : Option (V → X → X → Option α))
    (d : Dataset S V X α) (h : Dataset.mk' l am f = .ok d) :
    d.numConnectedComponents = .ok (components l) ↔
      ∀ i i' s s' hs hs', (sources l)[i]? = some s → (sources l)[i']? = some s' →
        Fresh l i → Fresh l i' →
        (graph l).Reachable ⟨.source s, hs⟩ ⟨.source s', hs'⟩ → i = i' := by
  obtain ⟨rfl, -, -⟩ := (mk'_ok_iff l h10 am f d).1 h
  have hfin := finite_fresh l
  rw [numComponents_card h10 l f, Except.ok.injEq]
  constructor
  · intro hcard i i' s s' hs hs' e e' hf hf' hr
    have hbij := (srcNode_surjective l).bijective_of_nat_card_le (le_of_eq hcard)
    have : (⟨i, hf⟩ : {i : Nat // Fresh l i}) = ⟨i', hf'⟩ := by
      apply hbij.1
      apply SimpleGraph.ConnectedComponent.sound
      have h1 : srcNode l ⟨i, hf⟩ = ⟨.source s, hs⟩ := by
        obtain ⟨_, h⟩ := List.getElem?_eq_some_iff.1 e
        simp [srcNode, h]
      have h2 : srcNode l ⟨i', hf'⟩ = ⟨.source s', hs'⟩ := by
        obtain ⟨_, h⟩ := List.getElem?_eq_some_iff.1 e'
        simp [srcNode, h]
      rw [h1, h2]; exact hr
    exact congrArg Subtype.val this
  · intro hinj
    refine Nat.card_eq_of_bijective _ ⟨?_, srcNode_surjective l⟩
    rintro ⟨i, hf⟩ ⟨i', hf'⟩ e
    have hi : i < (sources l).length := by
      obtain ⟨s, hs, -⟩ := hf; exact (List.getElem?_eq_some_iff.1 hs).1
    have hi' : i' < (sources l).length := by
      obtain ⟨s, hs, -⟩ := hf'; exact (List.getElem?_eq_some_iff.1 hs).1
    refine Subtype.ext (hinj i i' _ _ (List.getElem_mem hi) (List.getElem_mem hi')
      (List.getElem?_eq_getElem hi) (List.getElem?_eq_getElem hi') hf hf' ?_)
    exact SimpleGraph.ConnectedComponent.exact e

/-- Two sources without a common variable, joined by a third. -/
def bridged : List (String × String × Nat) :=
  [("s1", "a", 1), ("s2", "b", 1), ("s3", "a", 1), ("s3", "b", 1)]

/-- **C08, refutation.** For the dataset `s1: {a}`, `s2: {b}`, `s3: {a, b}` the
method returns 2 although the graph is connected. -/
theorem C08_refuted : ∃ d : Dataset String String Nat Int,
    Dataset.mk' bridged false none = .ok d ∧ d.numConnectedComponents = .ok 2 ∧
      components bridged = 1 := by
  refine ⟨_, rfl, rfl, ?_⟩
  have hs3 : Present bridged (.source "s3") := by show _ ∈ sources bridged; decide
  have hall : ∀ n, (graph bridged).Reachable n ⟨.source "s3", hs3⟩ := by
    have r1 : ∀ h, (graph bridged).Reachable ⟨.claim "a" 1, h⟩ ⟨.source "s3", hs3⟩ :=
      fun h => (reach_of_claim bridged (by decide) hs3 h).symm
    have r2 : ∀ h, (graph bridged).Reachable ⟨.claim "b" 1, h⟩ ⟨.source "s3", hs3⟩ :=
      fun h => (reach_of_claim bridged (by decide) hs3 h).symm
    have p1 : Present bridged (.claim "a" 1) := by show _ ∈ claims bridged; decide
    have p2 : Present bridged (.claim "b" 1) := by show _ ∈ claims bridged; decide
    rintro ⟨n, hn⟩
    cases n with
    | source s =>
      have : s = "s1" ∨ s = "s2" ∨ s = "s3" := by
        have hm : s ∈ sources bridged := hn
        simpa [show sources bridged = ["s1", "s2", "s3"] by decide] using hm
      rcases this with rfl | rfl | rfl
      · exact (reach_of_claim bridged (by decide) hn p1).trans (r1 p1)
      · exact (reach_of_claim bridged (by decide) hn p2).trans (r2 p2)
      · exact SimpleGraph.Reachable.refl _
    | claim v x =>
      have hm : (v, x) ∈ claims bridged := hn
      rw [show claims bridged = [("a", 1), ("b", 1)] by decide] at hm
      simp only [List.mem_cons, Prod.mk.injEq, List.not_mem_nil, or_false] at hm
      rcases hm with ⟨rfl, rfl⟩ | ⟨rfl, rfl⟩
      · exact r1 _
      · exact r2 _
    | var v =>
      have hm : v ∈ vars bridged := hn
      rw [show vars bridged = ["a", "b"] by decide] at hm
      simp only [List.mem_cons, List.not_mem_nil, or_false] at hm
      rcases hm with rfl | rfl
      · exact (reach_of_var bridged p1 hn).symm.trans (r1 p1)
      · exact (reach_of_var bridged p2 hn).symm.trans (r2 p2)
  have hsub : Subsingleton (graph bridged).ConnectedComponent :=
    ⟨fun C D => by
      induction C using SimpleGraph.ConnectedComponent.ind with
      | h a =>
        induction D using SimpleGraph.ConnectedComponent.ind with
        | h b => exact SimpleGraph.ConnectedComponent.sound ((hall a).trans (hall b).symm)⟩
  have hne : Nonempty (graph bridged).ConnectedComponent :=
    ⟨(graph bridged).connectedComponentMk ⟨.source "s3", hs3⟩⟩
  exact Nat.card_eq_one_iff_unique.2 ⟨hsub, hne⟩

/-- The method is right on a dataset with two real components. -/
example : ∃ d : Dataset String String Nat Int,
    Dataset.mk' [("s", "x", 1), ("t", "y", 2), ("u", "x", 2)] false none = .ok d ∧
      d.numConnectedComponents = .ok 2 := ⟨_, rfl, rfl⟩

end TD
