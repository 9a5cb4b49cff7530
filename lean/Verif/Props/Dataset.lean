import Verif.Lemmas.Dicts
import Verif.Lemmas.Toy
/-!
# C01-C07: construction of datasets

`l` is the list of triples given to `Dataset(...)`, `am` is `allow_multiple`
and `f` the optional implication function.  Specifications (`sources`, `vars`,
`claims`, `recorded`, `NoRepeats`) are in `Verif/Spec/Dataset.lean`.

`h10` says that the floats 1 and 0 differ (used only when an implication
function is given, because `mut_ex.nonzero()` drops stored zeros).
-/

namespace TD
open Spec
attribute [-instance] instBEqProd

variable {S V X α : Type} [DecidableEq S] [DecidableEq V] [DecidableEq X] [Arith α]

/-- `m` is a bijection between the distinct `labels` and `0 .. n-1`, numbered in
the order of the list; unknown labels and ids raise `KeyError`. -/
structure Numbers {κ : Type} [DecidableEq κ] (m : IDMap κ) (labels : List κ) : Prop where
  nodup : labels.Nodup
  length : m.length = labels.length
  get : ∀ k i, m.get k = .ok i ↔ labels[i]? = some k
  get_unknown : ∀ k, k ∉ labels → m.get k = .error .keyError
  inv : ∀ k i, m.inv i = .ok k ↔ labels[i]? = some k
  inv_unknown : ∀ i, labels.length ≤ i → m.inv i = .error .keyError

theorem numbers_zipIdx {κ : Type} [DecidableEq κ] {labels : List κ} (h : labels.Nodup) :
    Numbers labels.zipIdx labels where
  nodup := h
  length := by simp
  get := by
    intro k i
    rw [idmap_get]
    by_cases hk : k ∈ labels
    · simp only [hk, ↓reduceIte, Except.ok.injEq, idxOf_eq_iff h hk]
    · simp only [hk, ↓reduceIte, reduceCtorEq, false_iff]
      exact fun e => hk (List.mem_of_getElem? e)
  get_unknown := by intro k hk; rw [idmap_get, if_neg hk]
  inv := by
    intro k i
    rw [idmap_inv]
    by_cases hi : i < labels.length <;> simp [hi]
  inv_unknown := by
    intro i hi
    rw [idmap_inv, dif_neg (by omega)]

/-- The labels the model's dataset attaches to claim id `j`: the two lookups
`claim_ids.inverse[j]`, then `var_ids.inverse` and `val_hashes.inverse`. -/
def Dataset.claimLabel (d : Dataset S V X α) (j : Nat) : Except PyErr (V × X) := do
  let c ← d.claimIds.inv j
  let v ← d.varIds.inv c.1
  let x ← d.valHashes.inv c.2
  return (v, x)

theorem claimLabel_datasetOf (l : List (S × V × X)) (f : Option (V → X → X → Option α)) (j : Nat) :
    (datasetOf l f).claimLabel j =
      if h : j < (claims l).length then .ok (claims l)[j] else .error .keyError := by
  by_cases h : j < (claims l).length
  · have hm := List.getElem_mem h
    have h1 := List.idxOf_lt_length_iff.2 (claim_var_mem l hm)
    have h2 := List.idxOf_lt_length_iff.2 (claim_val_mem l hm)
    simp [Dataset.claimLabel, datasetOf, idmap_inv, h, claimKey, h1, h2, bind, Except.bind, pure,
      Except.pure]
  · simp [Dataset.claimLabel, datasetOf, idmap_inv, h, bind, Except.bind]

/-- **C01.** Source, variable and value mappings number the labels that occur in
order of first appearance; claim ids number the recorded (variable, value)
pairs; the size attributes are the numbers of distinct labels. -/
theorem C01_ids_bijective (h10 : Arith.eq (Arith.ofNat 1 : α) (Arith.ofNat 0) = false)
    (l : List (S × V × X)) (am : Bool) (f : Option (V → X → X → Option α))
    (d : Dataset S V X α) (h : Dataset.mk' l am f = .ok d) :
    Numbers d.sourceIds (sources l) ∧ Numbers d.varIds (vars l) ∧ Numbers d.valHashes (vals l) ∧
    (∀ s, s ∈ sources l ↔ ∃ t ∈ l, t.1 = s) ∧ (∀ v, v ∈ vars l ↔ ∃ t ∈ l, t.2.1 = v) ∧
    (claims l).Nodup ∧ (∀ c, c ∈ claims l ↔ ∃ s, (s, c) ∈ recorded l) ∧
    (∀ j c, d.claimLabel j = .ok c ↔ (claims l)[j]? = some c) ∧
    (∀ j, (claims l).length ≤ j → d.claimLabel j = .error .keyError) ∧
    (∀ v x j, (do let vi ← d.varIds.get v; let xi ← d.valHashes.get x; d.claimIds.get (vi, xi)) =
      .ok j ↔ (claims l)[j]? = some (v, x)) ∧
    d.mats.numSources = (sources l).length ∧ d.numVariables = (vars l).length ∧
    d.mats.numClaims = (claims l).length := by
  obtain ⟨rfl, -, -⟩ := (mk'_ok_iff l h10 am f d).1 h
  refine ⟨numbers_zipIdx (nodup_sources l), numbers_zipIdx (nodup_vars l),
    numbers_zipIdx (nodup_vals l), fun s => mem_sources l, fun v => mem_vars l, nodup_claims l,
    ?_, ?_, ?_, ?_, rfl, rfl, rfl⟩
  · intro c
    rw [mem_claims]
    constructor
    · rintro ⟨t, ht, rfl⟩; exact ⟨t.1, ht⟩
    · rintro ⟨s, hs⟩; exact ⟨_, hs, rfl⟩
  · intro j c
    rw [claimLabel_datasetOf]
    by_cases hj : j < (claims l).length <;> simp [hj]
  · intro j hj
    rw [claimLabel_datasetOf, dif_neg (by omega)]
  · intro v x j
    simp only [datasetOf, idmap_get]
    by_cases hv : v ∈ vars l
    · by_cases hx : x ∈ vals l
      · simp only [hv, hx, ↓reduceIte, bind, Except.bind]
        have hmem : ((vars l).idxOf v, (vals l).idxOf x) ∈ (claims l).map (claimKey l) ↔
            (v, x) ∈ claims l := by
          constructor
          · intro hm
            obtain ⟨c, hc, e⟩ := List.mem_map.1 hm
            rw [← claimKey_inj l hc (e.trans (rfl : _ = claimKey l (v, x)))]; exact hc
          · exact fun hm => List.mem_map_of_mem (f := claimKey l) hm
        by_cases hc : (v, x) ∈ claims l
        · rw [if_pos (hmem.2 hc)]
          rw [Except.ok.injEq, idxOf_eq_iff (nodup_claimKeys l) (hmem.2 hc)]
          simp only [List.getElem?_map, Option.map_eq_some_iff]
          constructor
          · rintro ⟨c, h1, h2⟩
            rw [h1, claimKey_inj l (List.mem_of_getElem? h1) (h2.trans (rfl : _ = claimKey l (v, x)))]
          · exact fun e => ⟨_, e, rfl⟩
        · rw [if_neg (mt hmem.1 hc)]
          simp only [reduceCtorEq, false_iff]
          exact fun e => hc (List.mem_of_getElem? e)
      · simp only [hv, hx, ↓reduceIte, bind, Except.bind, reduceCtorEq, false_iff]
        exact fun e => hx (claim_val_mem l (List.mem_of_getElem? e))
    · simp only [hv, ↓reduceIte, bind, Except.bind, reduceCtorEq, false_iff]
      exact fun e => hv (claim_var_mem l (List.mem_of_getElem? e))

/-- **C01**, `get_id`: a known label keeps the mapping; an unknown one gets the
next id, or `KeyError` when `insert=False`. -/
theorem C01_get_id (h10 : Arith.eq (Arith.ofNat 1 : α) (Arith.ofNat 0) = false)
    (l : List (S × V × X)) (am : Bool) (f : Option (V → X → X → Option α))
    (d : Dataset S V X α) (h : Dataset.mk' l am f = .ok d) (s : S) :
    (∀ i ins, (sources l)[i]? = some s → d.sourceIds.getId s ins = .ok (i, d.sourceIds)) ∧
    (s ∉ sources l → d.sourceIds.getId s false = .error .keyError ∧
      ∃ m, d.sourceIds.getId s true = .ok ((sources l).length, m) ∧
        Numbers m (sources l ++ [s])) := by
  obtain ⟨rfl, -, -⟩ := (mk'_ok_iff l h10 am f d).1 h
  constructor
  · intro i ins hi
    have hm := List.mem_of_getElem? hi
    have hidx := (idxOf_eq_iff (nodup_sources l) hm).2 hi
    cases ins
    · simp [datasetOf, idmap_getId_noinsert, hm, hidx]
    · simp [datasetOf, idmap_getId, hm, hidx]
  · intro hn
    refine ⟨by simp [datasetOf, idmap_getId_noinsert, hn], (sources l ++ [s]).zipIdx, ?_, ?_⟩
    · simp [datasetOf, idmap_getId, hn]
    · exact numbers_zipIdx (by
        rw [List.nodup_append]
        refine ⟨nodup_sources l, by simp, ?_⟩
        intro a ha b hb
        simp at hb; subst hb
        rintro rfl; exact hn ha)

/-- The labels that the calls have asked to insert, in order. -/
def asked {κ : Type} (cs : List (κ × Bool)) : List κ := (cs.filter fun c => c.2).map fun c => c.1

theorem calls_zipIdx {κ : Type} [DecidableEq κ] (cs : List (κ × Bool)) (K : List κ) :
    (IDMap.calls (firsts K).zipIdx cs).2 = (firsts (K ++ asked cs)).zipIdx ∧
    (IDMap.calls (firsts K).zipIdx cs).1.length = cs.length ∧
    ∀ (n : Nat) (c : κ × Bool), cs[n]? = some c → (IDMap.calls (firsts K).zipIdx cs).1[n]? =
      some (if c.1 ∈ K ++ asked (cs.take n) then
          .ok ((firsts (K ++ asked (cs.take n))).idxOf c.1)
        else if c.2 then .ok (firsts (K ++ asked (cs.take n))).length else .error .keyError) := by
  induction cs generalizing K with
  | nil => simp [IDMap.calls, asked]
  | cons c cs ih =>
    obtain ⟨k, ins⟩ := c
    cases ins with
    | true =>
      have e := idmap_getId_firsts K k
      have e2 : K ++ asked ((k, true) :: cs) = (K ++ [k]) ++ asked cs := by simp [asked]
      obtain ⟨h1, h2, h3⟩ := ih (K ++ [k])
      simp only [IDMap.calls, e]
      refine ⟨by rw [e2, h1], by simp [h2], ?_⟩
      intro n c hn
      cases n with
      | zero =>
        simp only [List.getElem?_cons_zero, Option.some.injEq] at hn
        subst hn
        simp only [List.getElem?_cons_zero, List.take_zero, asked, List.filter_nil, List.map_nil,
          List.append_nil, if_true]
        rw [firsts_append]
        by_cases hk : k ∈ K
        · simp [hk]
        · simp [hk, List.idxOf_append, mem_firsts]
      | succ n =>
        simp only [List.getElem?_cons_succ] at hn ⊢
        rw [h3 n c hn]
        have e3 : K ++ asked (((k, true) :: cs).take (n + 1)) = (K ++ [k]) ++ asked (cs.take n) := by
          simp [asked]
        rw [e3]
    | false =>
      obtain ⟨h1, h2, h3⟩ := ih K
      have e2 : ∀ cs' : List (κ × Bool), K ++ asked ((k, false) :: cs') = K ++ asked cs' := by
        simp [asked]
      have e := idmap_getId_noinsert (firsts K) k
      have e3 : ∀ (n : Nat) (c : κ × Bool), ((k, false) :: cs)[n + 1]? = some c →
          (IDMap.calls (firsts K).zipIdx cs).1[n]? =
            some (if c.1 ∈ K ++ asked (((k, false) :: cs).take (n + 1)) then
              .ok ((firsts (K ++ asked (((k, false) :: cs).take (n + 1)))).idxOf c.1)
            else if c.2 then .ok (firsts (K ++ asked (((k, false) :: cs).take (n + 1)))).length
              else .error .keyError) := by
        intro n c hn
        rw [List.take_succ_cons, e2]
        exact h3 n c (by simpa using hn)
      by_cases hk : k ∈ firsts K
      · rw [if_pos hk] at e
        have hk' := mem_firsts.1 hk
        simp only [IDMap.calls, e]
        refine ⟨by rw [e2, h1], by simp [h2], ?_⟩
        intro n c hn
        cases n with
        | zero =>
          simp only [List.getElem?_cons_zero, Option.some.injEq] at hn
          subst hn
          simp [asked, hk']
        | succ n => exact e3 n c hn
      · rw [if_neg hk] at e
        have hk' : ¬ k ∈ K := fun h => hk (mem_firsts.2 h)
        simp only [IDMap.calls, e]
        refine ⟨by rw [e2, h1], by simp [h2], ?_⟩
        intro n c hn
        cases n with
        | zero =>
          simp only [List.getElem?_cons_zero, Option.some.injEq] at hn
          subst hn
          simp [asked, hk']
        | succ n => exact e3 n c hn

/-- **C01**, every history of `get_id` calls on a new mapping: afterwards the mapping
numbers, in order of first appearance, exactly the labels that were asked for with
`insert=True`; and call number `n`, for label `k`, answers the place of `k` among those
asked for before it, or else the next number (`insert=True`) or `KeyError`
(`insert=False`).  No other exception is raised, whatever the history. -/
theorem C01_get_id_history {κ : Type} [DecidableEq κ] (cs : List (κ × Bool)) :
    Numbers (IDMap.calls [] cs).2 (firsts (asked cs)) ∧
    (IDMap.calls [] cs).1.length = cs.length ∧
    ∀ (n : Nat) (k : κ) (ins : Bool), cs[n]? = some (k, ins) →
      (∀ i : Nat, (firsts (asked (cs.take n)))[i]? = some k →
        (IDMap.calls [] cs).1[n]? = some (.ok i)) ∧
      (k ∉ asked (cs.take n) → ins = true →
        (IDMap.calls [] cs).1[n]? = some (.ok (firsts (asked (cs.take n))).length)) ∧
      (k ∉ asked (cs.take n) → ins = false →
        (IDMap.calls [] cs).1[n]? = some (.error .keyError)) := by
  obtain ⟨h1, h2, h3⟩ := calls_zipIdx cs []
  have e0 : (firsts ([] : List κ)).zipIdx = ([] : IDMap κ) := rfl
  rw [e0] at h1 h2 h3
  simp only [List.nil_append] at h1 h3
  refine ⟨by rw [h1]; exact numbers_zipIdx (nodup_firsts _), h2, ?_⟩
  intro n k ins hn
  have h4 := h3 n (k, ins) hn
  refine ⟨?_, ?_, ?_⟩
  · intro i hi
    have hm := List.mem_of_getElem? hi
    have := (idxOf_eq_iff (nodup_firsts _) hm).2 hi
    rw [h4, if_pos (mem_firsts.1 hm), this]
  · rintro hk rfl
    rw [h4]; simp [hk]
  · rintro hk rfl
    rw [h4]; simp [hk]

example : (IDMap.calls [] [("a", true), ("b", false), ("b", true), ("a", false), ("b", true)]).1 =
    [.ok 0, .error .keyError, .ok 1, .ok 0, .ok 1] := rfl

/-- **C02.** `sc` is `num_sources x num_claims`; its row `i` stores, in id order
and once each, a 1 for exactly the claims recorded for source `i`. -/
theorem C02_sc_is_claim_relation (h10 : Arith.eq (Arith.ofNat 1 : α) (Arith.ofNat 0) = false)
    (l : List (S × V × X)) (am : Bool) (f : Option (V → X → X → Option α))
    (d : Dataset S V X α) (h : Dataset.mk' l am f = .ok d) :
    d.mats.sc.nrows = (sources l).length ∧ d.mats.sc.ncols = (claims l).length ∧
    d.mats.sc.rows.length = (sources l).length ∧
    ∀ i s, (sources l)[i]? = some s →
      (∃ row, d.mats.sc.rows[i]? = some row ∧ (row.map Prod.fst).Nodup ∧
        (∀ j v, (j, v) ∈ row ↔ v = Arith.ofNat 1 ∧
          ∃ c, (claims l)[j]? = some c ∧ (s, c) ∈ recorded l)) ∧
      ∀ j c, (claims l)[j]? = some c →
        d.mats.sc.get i j = if (s, c) ∈ recorded l then Arith.ofNat 1 else Arith.ofNat 0 := by
  obtain ⟨rfl, -, -⟩ := (mk'_ok_iff l h10 am f d).1 h
  refine ⟨rfl, rfl, by simp [datasetOf, matsOf, Mat.ofFn], ?_⟩
  intro i s hi
  obtain ⟨hilt, -⟩ := List.getElem?_eq_some_iff.1 hi
  refine ⟨⟨(List.range (claims l).length).filterMap fun j =>
    (oneIf (scRel l i j) : Option α).map fun v => (j, v), ?_, ?_, ?_⟩, ?_⟩
  · simp [datasetOf, matsOf, Mat.ofFn, hilt]
  · rw [List.map_filterMap]
    refine List.Sublist.nodup ?_ (List.nodup_range (n := (claims l).length))
    have : ∀ L : List Nat, (L.filterMap fun j => Option.map Prod.fst
        ((oneIf (scRel l i j) : Option α).map fun v => (j, v))).Sublist L := by
      intro L
      induction L with
      | nil => simp
      | cons a L ih =>
        by_cases hr : scRel l i a = true
        · simpa [oneIf, hr] using ih
        · simpa [oneIf, hr] using ih.cons a
    exact this _
  · intro j v
    simp only [List.mem_filterMap, List.mem_range, Option.map_eq_some_iff, Prod.mk.injEq]
    constructor
    · rintro ⟨j', hj', v', hv', rfl, rfl⟩
      simp only [scRel, oneIf, hi, List.getElem?_eq_getElem hj'] at hv'
      split at hv'
      · rename_i hr
        simp only [Option.some.injEq] at hv'
        exact ⟨hv'.symm, _, List.getElem?_eq_getElem hj', by simpa using hr⟩
      · simp at hv'
    · rintro ⟨rfl, c, hc, hm⟩
      obtain ⟨hj, -⟩ := List.getElem?_eq_some_iff.1 hc
      exact ⟨j, hj, _, by simp [scRel, oneIf, hi, hc, hm], rfl, rfl⟩
  · intro j c hc
    obtain ⟨hj, -⟩ := List.getElem?_eq_some_iff.1 hc
    simp only [datasetOf, matsOf, Mat.get_ofFn, hilt, hj, and_self, ↓reduceIte]
    simp only [scRel, oneIf, hi, hc]
    by_cases hm : (s, c) ∈ recorded l <;> simp [hm]

/-- **C03.** `mut_ex[j, k]` is 1 iff the claims `j`, `k` are about the same
variable, else 0 (so the relation is an equivalence); shape is square. -/
theorem C03_mut_ex_is_same_variable (h10 : Arith.eq (Arith.ofNat 1 : α) (Arith.ofNat 0) = false)
    (l : List (S × V × X)) (am : Bool) (f : Option (V → X → X → Option α))
    (d : Dataset S V X α) (h : Dataset.mk' l am f = .ok d) :
    d.mats.mutEx.nrows = (claims l).length ∧ d.mats.mutEx.ncols = (claims l).length ∧
    ∀ j k c c', (claims l)[j]? = some c → (claims l)[k]? = some c' →
      d.mats.mutEx.get j k = if c.1 = c'.1 then Arith.ofNat 1 else Arith.ofNat 0 := by
  obtain ⟨rfl, -, -⟩ := (mk'_ok_iff l h10 am f d).1 h
  refine ⟨rfl, rfl, ?_⟩
  intro j k c c' hj hk
  obtain ⟨hj', -⟩ := List.getElem?_eq_some_iff.1 hj
  obtain ⟨hk', -⟩ := List.getElem?_eq_some_iff.1 hk
  simp only [datasetOf, matsOf, Mat.get_ofFn, hj', hk', and_self, ↓reduceIte]
  simp only [mxRel, oneIf, hj, hk]
  by_cases hm : c.1 = c'.1 <;> simp [hm]

/-- **C04.** Some ordered pair of different recorded values of one variable gets
an implication value `< -1` or `> 1`. -/
def ImplicationOutOfRange (l : List (S × V × X)) (f : V → X → X → Option α) : Prop :=
  ∃ v x y r, (v, x) ∈ claims l ∧ (v, y) ∈ claims l ∧ x ≠ y ∧ f v x y = some r ∧
    (Arith.lt r (Arith.lit (-1) 1) = true ∨ Arith.lt (Arith.lit 1 1) r = true)

theorem impBad_iff (l : List (S × V × X)) (f : V → X → X → Option α) :
    impBad l f ↔ ImplicationOutOfRange l f := by
  constructor
  · rintro ⟨⟨v, x⟩, hc, ⟨v', y⟩, hd, hne, hv, r, hr, hb⟩
    obtain rfl : v = v' := hv
    refine ⟨v, x, y, r, hc, hd, ?_, hr, by simpa [badImp] using hb⟩
    rintro rfl; exact hne rfl
  · rintro ⟨v, x, y, r, hc, hd, hne, hr, hb⟩
    exact ⟨(v, x), hc, (v, y), hd, by simpa using hne, rfl, r, hr, by simpa [badImp] using hb⟩

/-- **C04.** Construction with an implication function raises the implication
`ValueError` iff some value is out of range (given that no duplicate is
reported first). -/
theorem C04_implication_error_iff (h10 : Arith.eq (Arith.ofNat 1 : α) (Arith.ofNat 0) = false)
    (l : List (S × V × X)) (am : Bool) (f : V → X → X → Option α)
    (hl : am = true ∨ NoRepeats l) :
    Dataset.mk' l am (some f) = .error .implication ↔ ImplicationOutOfRange l f := by
  rw [← impBad_iff]
  have hr : Build.run am l = .ok (buildOf l) := (run_ok_iff am l _).2 ⟨rfl, hl⟩
  constructor
  · intro h
    by_contra hb
    have := (mk'_ok_iff l h10 am (some f) (datasetOf l (some f))).2 ⟨rfl, hl, hb⟩
    rw [this] at h; simp at h
  · intro hb
    simp only [Dataset.mk', hr, bind, Except.bind, impMat_bad l h10 f hb]

/-- **C04.** Otherwise `imp[j, k]` is the value of the implication function for
different claims of the same variable where it is not `None`, and 0 elsewhere. -/
theorem C04_implication_entries (h10 : Arith.eq (Arith.ofNat 1 : α) (Arith.ofNat 0) = false)
    (l : List (S × V × X)) (am : Bool) (f : V → X → X → Option α)
    (d : Dataset S V X α) (h : Dataset.mk' l am (some f) = .ok d) :
    d.mats.imp.nrows = (claims l).length ∧ d.mats.imp.ncols = (claims l).length ∧
    ∀ j k v x w y, (claims l)[j]? = some (v, x) → (claims l)[k]? = some (w, y) →
      d.mats.imp.get j k =
        if v = w ∧ x ≠ y then (f v x y).getD (Arith.ofNat 0) else Arith.ofNat 0 := by
  obtain ⟨rfl, -, -⟩ := (mk'_ok_iff l h10 am (some f) d).1 h
  refine ⟨rfl, rfl, ?_⟩
  intro j k v x w y hj hk
  obtain ⟨hj', -⟩ := List.getElem?_eq_some_iff.1 hj
  obtain ⟨hk', -⟩ := List.getElem?_eq_some_iff.1 hk
  simp only [datasetOf, matsOf, Mat.get_ofFn, hj', hk', and_self, ↓reduceIte]
  simp only [impFn, hj, hk, ne_eq, Prod.mk.injEq, not_and]
  by_cases hv : v = w
  · subst hv
    by_cases hx : x = y <;> simp [hx]
  · simp [hv]

/-- **C04.** Without an implication function `imp` has no non-zero entry. -/
theorem C04_no_implications (l : List (S × V × X)) (am : Bool)
    (d : Dataset S V X α) (h : Dataset.mk' l am none = .ok d) :
    ∀ j k, d.mats.imp.get j k = Arith.ofNat 0 := by
  intro j k
  unfold Dataset.mk' at h
  cases hb : Build.run am l with
  | error e => simp [hb, bind, Except.bind] at h
  | ok b =>
    obtain ⟨rfl, -⟩ := (run_ok_iff am l b).1 hb
    rw [hb] at h
    simp only [bind, Except.bind, impMat_none, pure, Except.pure, Except.ok.injEq] at h
    subst h
    simp [Mat.get_ofFn]

/-- **C05.** With `allow_multiple=False` construction reports a duplicate iff
some (source, variable) pair occurs twice, and it names the first one. -/
theorem C05_duplicates_rejected (l : List (S × V × X)) (f : Option (V → X → X → Option α))
    (s : S) (v : V) :
    Dataset.mk' l false f = .error (.multiple s v) ↔
      ∃ pre x post, l = pre ++ (s, v, x) :: post ∧ NoRepeats pre ∧ ∃ y, (s, v, y) ∈ pre := by
  by_cases hn : NoRepeats l
  · constructor
    · intro h
      simp only [Dataset.mk', run_false l hn, bind, Except.bind] at h
      cases f with
      | none => simp [impMat_none, pure, Except.pure] at h
      | some f =>
        exfalso
        revert h
        have : ∀ L acc, List.foldlM ((buildOf l).impStep f) acc L ≠ .error (.multiple s v) := by
          intro L
          induction L with
          | nil => intro acc h; simp [pure, Except.pure] at h
          | cons e L ih =>
            intro acc h
            rw [List.foldlM_cons] at h
            cases hs : (buildOf l).impStep f acc e with
            | error er =>
              rw [hs] at h
              simp only [bind, Except.bind, Except.error.injEq] at h
              subst h
              unfold Build.impStep at hs
              split at hs
              · simp [pure, Except.pure] at hs
              · revert hs
                simp only [bind, Except.bind]
                intro hs
                repeat' split at hs
                all_goals first
                  | (simp [pure, Except.pure, throw, throwThe, MonadExceptOf.throw] at hs; done)
                  | (rename_i hh; simp only [Except.error.injEq] at hs; subst hs
                     revert hh
                     simp only [liftPy]
                     intro hh
                     split at hh <;> simp at hh)
            | ok acc' => rw [hs] at h; exact ih _ h
        simp only [Build.impMat, bind, Except.bind]
        cases hf : List.foldlM ((buildOf l).impStep f) [] ((buildOf l).mutExMat (α := α)).nonzero with
        | error er =>
          intro h
          simp only [Except.error.injEq] at h
          subst h; exact this _ _ hf
        | ok es =>
          intro h
          by_cases hE : es.isEmpty = true <;> simp [hE, pure, Except.pure] at h
    · rintro ⟨pre, x, post, rfl, hp, y, hy⟩
      exfalso
      simp only [NoRepeats, List.map_append, List.map_cons, List.nodup_append] at hn
      exact hn.2.2 (s, v) (List.mem_map.2 ⟨_, hy, rfl⟩) (s, v) (by simp) rfl
  · obtain ⟨pre, t, post, rfl, hp, u, hu, h1, h2⟩ := exists_first_dup l hn
    have hrun := run_dup pre post t hp ⟨u, hu, h1, h2⟩
    have hmk : Dataset.mk' (pre ++ t :: post) false f = .error (.multiple t.1 t.2.1) := by
      simp [Dataset.mk', hrun, bind, Except.bind]
    constructor
    · intro h
      rw [hmk] at h
      simp only [Except.error.injEq, DatasetErr.multiple.injEq] at h
      obtain ⟨rfl, rfl⟩ := h
      exact ⟨pre, t.2.2, post, rfl, hp, u.2.2, by rw [← h1, ← h2]; exact hu⟩
    · rintro ⟨pre', x, post', e, hp', y, hy⟩
      have : Dataset.mk' (pre ++ t :: post) false f = .error (.multiple s v) := by
        rw [e]
        simp [Dataset.mk', run_dup pre' post' (s, v, x) hp' ⟨_, hy, rfl, rfl⟩, bind, Except.bind]
      exact this

/-- **C05.** A duplicate is reported for some pair iff the triples repeat one;
with `allow_multiple=True` never. -/
theorem C05_accepted_iff (h10 : Arith.eq (Arith.ofNat 1 : α) (Arith.ofNat 0) = false)
    (l : List (S × V × X)) :
    (∀ am, (∃ d : Dataset S V X α, Dataset.mk' l am none = .ok d) ↔ (am = true ∨ NoRepeats l)) ∧
    (∀ f : V → X → X → Option α, ∀ am, (∃ d : Dataset S V X α, Dataset.mk' l am (some f) = .ok d) ↔
      (am = true ∨ NoRepeats l) ∧ ¬ ImplicationOutOfRange l f) := by
  constructor
  · intro am
    constructor
    · rintro ⟨d, h⟩; exact ((mk'_ok_iff l h10 am none d).1 h).2.1
    · intro h; exact ⟨_, (mk'_ok_iff l h10 am none _).2 ⟨rfl, h, by simp [optImpBad]⟩⟩
  · intro f am
    rw [← impBad_iff]
    constructor
    · rintro ⟨d, h⟩; exact ((mk'_ok_iff l h10 am (some f) d).1 h).2
    · intro h; exact ⟨_, (mk'_ok_iff l h10 am (some f) _).2 ⟨rfl, h.1, h.2⟩⟩

/-- **C05.** By default repeats are refused: `Dataset(triples)` is accepted iff there are none. -/
theorem C05_default (h10 : Arith.eq (Arith.ofNat 1 : α) (Arith.ofNat 0) = false) (l : List (S × V × X)) :
    (∃ d : Dataset S V X α, Dataset.mk' l = .ok d) ↔ NoRepeats l := by
  rw [(C05_accepted_iff h10 l).1]
  simp

/-- **C05.** The recorded claims are those of the triples that are the first for
their (source, variable) pair; without repeats all of them. -/
theorem C05_recorded (l : List (S × V × X)) :
    (∀ s v x, (s, v, x) ∈ recorded l ↔
      ∃ pre post, l = pre ++ (s, v, x) :: post ∧ ∀ y, (s, v, y) ∉ pre) ∧
    (NoRepeats l → recorded l = l) := by
  refine ⟨fun s v x => ?_, recorded_eq_self⟩
  rw [recorded, mem_firstsBy_iff]
  refine exists_congr fun pre => exists_congr fun post => and_congr_right fun _ => ?_
  constructor
  · intro h y hy; exact h _ hy rfl
  · rintro h ⟨s', v', y⟩ hy e
    simp only [Prod.mk.injEq] at e
    obtain ⟨rfl, rfl⟩ := e
    exact h y hy

/-- **C06.** Every source makes a recorded claim, every claim has a source, every
variable has a claim; in particular every row and column of `sc` is non-zero. -/
theorem C06_no_isolated_nodes (h10 : Arith.eq (Arith.ofNat 1 : α) (Arith.ofNat 0) = false)
    (l : List (S × V × X)) (am : Bool) (f : Option (V → X → X → Option α))
    (d : Dataset S V X α) (h : Dataset.mk' l am f = .ok d) :
    (∀ i < d.mats.numSources, ∃ j < d.mats.numClaims, d.mats.sc.get i j = Arith.ofNat 1) ∧
    (∀ j < d.mats.numClaims, ∃ i < d.mats.numSources, d.mats.sc.get i j = Arith.ofNat 1) ∧
    (∀ v, (∃ t ∈ l, t.2.1 = v) → ∃ j x, d.claimLabel j = .ok (v, x)) := by
  have h2 := C02_sc_is_claim_relation h10 l am f d h
  obtain ⟨rfl, -, -⟩ := (mk'_ok_iff l h10 am f d).1 h
  have hget : ∀ t ∈ recorded l, ∀ i j, (sources l)[i]? = some t.1 → (claims l)[j]? = some t.2 →
      (datasetOf l f).mats.sc.get i j = Arith.ofNat 1 := by
    intro t ht i j hi hj
    rw [(h2.2.2.2 i t.1 hi).2 j t.2 hj, if_pos ht]
  refine ⟨?_, ?_, ?_⟩
  · intro i hi
    have hi' : i < (sources l).length := hi
    obtain ⟨t, ht, e⟩ := (mem_sources l).1 (List.getElem_mem hi')
    obtain ⟨u, hu, h1, -⟩ := (recorded_pair_iff l).2 ⟨t, ht, rfl, rfl⟩
    have hc : u.2 ∈ claims l := (mem_claims l).2 ⟨u, hu, rfl⟩
    obtain ⟨j, hj, ej⟩ := List.getElem_of_mem hc
    refine ⟨j, hj, hget u hu i j ?_ ?_⟩
    · rw [List.getElem?_eq_getElem hi', h1, e]
    · rw [List.getElem?_eq_getElem hj, ej]
  · intro j hj
    have hj' : j < (claims l).length := hj
    obtain ⟨t, ht, e⟩ := (mem_claims l).1 (List.getElem_mem hj')
    have hs : t.1 ∈ sources l := (mem_sources l).2 ⟨t, recorded_sub l ht, rfl⟩
    obtain ⟨i, hi, ei⟩ := List.getElem_of_mem hs
    refine ⟨i, hi, hget t ht i j ?_ ?_⟩
    · rw [List.getElem?_eq_getElem hi, ei]
    · rw [List.getElem?_eq_getElem hj', e]
  · rintro v ⟨t, ht, rfl⟩
    obtain ⟨u, hu, -, h1⟩ := (recorded_pair_iff l).2 ⟨t, ht, rfl, rfl⟩
    have hc : u.2 ∈ claims l := (mem_claims l).2 ⟨u, hu, rfl⟩
    obtain ⟨j, hj, ej⟩ := List.getElem_of_mem hc
    refine ⟨j, u.2.2, ?_⟩
    rw [claimLabel_datasetOf, dif_pos hj, ej, ← h1]

/-- **C07.** `get_source_trust_dict` gives every source the entry at its id. -/
theorem C07_trust_dict (h10 : Arith.eq (Arith.ofNat 1 : α) (Arith.ofNat 0) = false)
    (l : List (S × V × X)) (am : Bool) (f : Option (V → X → X → Option α))
    (d : Dataset S V X α) (h : Dataset.mk' l am f = .ok d) (y : Vec α)
    (hy : y.length = d.mats.numSources) :
    ∃ r, d.trustDict y = .ok r ∧ r.keys = sources l ∧
      ∀ s a, r.get? s = some a ↔ ∃ i : Nat, d.sourceIds.get s = .ok i ∧ y[i]? = some a := by
  have h1 := (C01_ids_bijective h10 l am f d h).1
  obtain ⟨rfl, -, -⟩ := (mk'_ok_iff l h10 am f d).1 h
  have hy' : y.length = (sources l).length := hy
  refine ⟨_, trustDict_eq l f y (by omega), ?_, ?_⟩
  · exact List.map_fst_zip (by omega)
  · intro s a
    have hnd : (((sources l).zip y).map Prod.fst).Nodup := by
      rw [List.map_fst_zip (by omega)]; exact nodup_sources l
    rw [Dict.get?, lookup_eq_some_iff hnd, List.mem_iff_getElem?]
    refine exists_congr fun i => ?_
    rw [List.getElem?_zip_eq_some, h1.get]

/-- **C07.** `get_belief_dict` has an entry for (var, val) iff that claim is
recorded, holding the entry at the claim's id; keys are unique at both levels. -/
theorem C07_belief_dict (h10 : Arith.eq (Arith.ofNat 1 : α) (Arith.ofNat 0) = false)
    (l : List (S × V × X)) (am : Bool) (f : Option (V → X → X → Option α))
    (d : Dataset S V X α) (h : Dataset.mk' l am f = .ok d) (y : Vec α)
    (hy : y.length = d.mats.numClaims) :
    ∃ r, d.beliefDict y = .ok r ∧ r.keys.Nodup ∧ (∀ v, v ∈ r.keys ↔ v ∈ vars l) ∧
      (∀ v dv, r.get? v = some dv → dv.keys.Nodup) ∧
      ∀ v x a, (r.get? v).bind (fun dv => dv.get? x) = some a ↔
        ∃ j : Nat, d.claimLabel j = .ok (v, x) ∧ y[j]? = some a := by
  obtain ⟨rfl, -, -⟩ := (mk'_ok_iff l h10 am f d).1 h
  have hy' : y.length = (claims l).length := hy
  refine ⟨_, beliefDict_eq l f y (by omega), ?_, ?_, ?_, ?_⟩
  · simp only [beliefOf, Dict.keys, List.map_map, Function.comp_def, List.map_id']
    exact nodup_firsts _
  · intro v
    simp only [beliefOf, Dict.keys, List.map_map, Function.comp_def, List.map_id', mem_firsts]
    rw [hy', List.take_length, List.mem_map]
    constructor
    · rintro ⟨c, hc, rfl⟩; exact claim_var_mem l hc
    · intro hv
      obtain ⟨t, ht, rfl⟩ := (mem_vars l).1 hv
      obtain ⟨u, hu, -, h1⟩ := (recorded_pair_iff l).2 ⟨t, ht, rfl, rfl⟩
      exact ⟨u.2, (mem_claims l).2 ⟨u, hu, rfl⟩, h1⟩
  · intro v dv hdv
    have : (beliefOf ((claims l).take y.length) y).get? v = _ := lookup_map_key _ _ _
    rw [this] at hdv
    split at hdv
    · simp only [Option.some.injEq] at hdv
      subst hdv
      exact inner_nodup ((nodup_claims l).sublist (List.take_sublist _ _)) y v
    · simp at hdv
  · intro v x a
    rw [hy', List.take_length, mem_beliefOf (nodup_claims l)]
    refine exists_congr fun j => and_congr_left fun _ => ?_
    rw [claimLabel_datasetOf]
    by_cases hj : j < (claims l).length <;> simp [hj]

/-! ### The hypotheses are satisfiable -/

open Toy in
example : ∃ d : Dataset String String Nat Int, Dataset.mk' triples false none = .ok d ∧
    d.mats.numSources = 3 ∧ d.mats.numClaims = 3 ∧ d.claimLabel 1 = .ok ("x", 2) :=
  ⟨_, rfl, by decide⟩

open Toy in
example : ¬ NoRepeats repeats ∧
    recorded repeats = [("s", "x", 1), ("t", "x", 2), ("t", "y", 3)] ∧
    Dataset.mk' (α := Int) repeats false none = .error (.multiple "s" "x") := by
  refine ⟨by decide, by decide, rfl⟩

open Toy in
example : ∃ d : Dataset String String Nat Int,
    Dataset.mk' triples false (some fun _ x y => some (if x < y then 1 else -1)) = .ok d ∧
    d.mats.imp.get 0 1 = 1 ∧ d.mats.imp.get 1 0 = -1 ∧ d.mats.imp.get 0 2 = 0 :=
  ⟨_, rfl, by decide⟩

open Toy in
example : Dataset.mk' (α := Int) triples false (some fun _ _ _ => some 2) = .error .implication ∧
    ImplicationOutOfRange (α := Int) triples (fun _ _ _ => some 2) :=
  ⟨rfl, ⟨"x", 1, 2, 2, by decide, by decide, by decide, rfl, by decide⟩⟩

end TD
