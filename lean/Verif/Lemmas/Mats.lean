import Verif.Lemmas.Build
import Mathlib.Data.List.Pairwise

namespace TD
open Spec
attribute [-instance] instBEqProd

section generic
variable {α β γ : Type}

/-- Matrix with stored entries given by a partial function. -/
def Mat.ofFn (nr nc : Nat) (f : Nat → Nat → Option α) : Mat α where
  nrows := nr
  ncols := nc
  rows := (List.range nr).map fun i => (List.range nc).filterMap fun j => (f i j).map fun v => (j, v)

theorem filterMap_unique [DecidableEq β] {L : List β} (hnd : L.Nodup) (g : β → Option γ) {a : β} (ha : a ∈ L)
    {y : γ} (hy : g a = some y) (h : ∀ b ∈ L, g b ≠ none → b = a) : L.filterMap g = [y] := by
  induction L with
  | nil => simp at ha
  | cons b L ih =>
    simp only [List.nodup_cons] at hnd
    by_cases hb : b = a
    · subst hb
      have : L.filterMap g = [] := by
        rw [List.filterMap_eq_nil_iff]
        intro c hc
        by_contra hn
        have := h c (by simp [hc]) hn
        subst this; exact hnd.1 hc
      simp [hy, this]
    · have hbn : g b = none := by
        by_contra hn; exact hb (h b (by simp) hn)
      have ha' : a ∈ L := by
        rcases List.mem_cons.1 ha with h | h
        · exact absurd h.symm hb
        · exact h
      rw [List.filterMap_cons_none hbn]
      exact ih hnd.2 ha' (fun c hc => h c (by simp [hc]))

/-- Lookup in a row of `ofFn`. -/
theorem lookup_row (L : List Nat) (g : Nat → Option α) (j : Nat) (hj : L.Nodup) :
    (L.filterMap fun j => (g j).map fun v => (j, v)).lookup j = if j ∈ L then g j else none := by
  induction L with
  | nil => simp
  | cons a L ih =>
    simp only [List.nodup_cons] at hj
    cases hga : g a with
    | none =>
      rw [List.filterMap_cons_none (by simp [hga]), ih hj.2]
      by_cases h : j = a
      · subst h; simp [hj.1, hga]
      · simp [h]
    | some v =>
      rw [List.filterMap_cons_some (b := (a, v)) (by simp [hga]), List.lookup_cons, ih hj.2]
      by_cases h : j = a
      · subst h; simp [hga]
      · have : (j == a) = false := by simp [h]
        simp [this, h]

theorem Mat.ofFn_row (nr nc : Nat) (f : Nat → Nat → Option α) (i : Nat) :
    (Mat.ofFn nr nc f).rows.getD i [] =
      if i < nr then (List.range nc).filterMap fun j => (f i j).map fun v => (j, v) else [] := by
  by_cases h : i < nr
  · simp [Mat.ofFn, h]
  · simp [Mat.ofFn, h]

theorem Mat.ofFn_lookup (nr nc : Nat) (f : Nat → Nat → Option α) (i j : Nat) :
    ((Mat.ofFn nr nc f).rows.getD i []).lookup j = if i < nr ∧ j < nc then f i j else none := by
  rw [Mat.ofFn_row]
  by_cases h : i < nr
  · simp [h, lookup_row _ _ _ List.nodup_range]
  · simp [h]

theorem Mat.ofFn_congr {nr nc : Nat} {f g : Nat → Nat → Option α}
    (h : ∀ i < nr, ∀ j < nc, f i j = g i j) : Mat.ofFn nr nc f = Mat.ofFn nr nc g := by
  simp only [Mat.ofFn, Mat.mk.injEq, true_and]
  refine List.map_congr_left fun i hi => ?_
  refine List.filterMap_congr fun j hj => ?_
  rw [h i (by simpa using hi) j (by simpa using hj)]

theorem enum_map_range (n : Nat) (f : Nat → β) :
    enum ((List.range n).map f) = (List.range n).map fun i => (i, f i) := by
  apply List.ext_getElem?
  intro i
  simp only [enum, List.getElem?_map, List.getElem?_zipIdx]
  by_cases h : i < n <;> simp [h, List.getElem?_range]

theorem Mat.T_ofFn (nr nc : Nat) (f : Nat → Nat → Option α) :
    (Mat.ofFn nr nc f).T = Mat.ofFn nc nr (fun j i => f i j) := by
  have h : (Mat.ofFn nr nc f).T.rows = (Mat.ofFn nc nr (fun j i => f i j)).rows := by
    simp only [Mat.T]
    show (List.range nc).map _ = (List.range nc).map _
    refine List.map_congr_left fun j hj => ?_
    have hj' : j < nc := by simpa using hj
    show List.filterMap _ (enum ((List.range nr).map _)) = _
    rw [enum_map_range, List.filterMap_map]
    refine List.filterMap_congr fun i hi => ?_
    simp only [Function.comp_apply]
    rw [lookup_row _ _ _ List.nodup_range]
    simp [hj']
  have h1 : (Mat.ofFn nr nc f).T.nrows = nc := rfl
  have h2 : (Mat.ofFn nr nc f).T.ncols = nr := rfl
  generalize (Mat.ofFn nr nc f).T = M at h h1 h2
  cases M; simp_all [Mat.ofFn]

end generic

section
variable {S V X α : Type} [DecidableEq S] [DecidableEq V] [DecidableEq X] [Arith α]

theorem Mat.get_ofFn (nr nc : Nat) (f : Nat → Nat → Option α) (i j : Nat) :
    (Mat.ofFn nr nc f).get i j =
      (if i < nr ∧ j < nc then f i j else none).getD (Arith.ofNat 0) := by
  rw [Mat.get, Mat.ofFn_lookup]

/-- Values of the entries at one position. -/
def cell (entries : List (Nat × Nat × α)) (i j : Nat) : List α :=
  entries.filterMap (fun e => if e.1 = i ∧ e.2.1 = j then some e.2.2 else none)

theorem Mat.csr_eq (entries : List (Nat × Nat × α)) (nr nc : Nat) :
    Mat.csr entries nr nc = Mat.ofFn nr nc (fun i j =>
      match cell entries i j with
      | [] => none
      | v :: vs => some (vs.foldl Arith.add v)) := by
  simp only [Mat.csr, Mat.ofFn, Mat.mk.injEq, true_and]
  refine List.map_congr_left fun i _ => List.filterMap_congr fun j _ => ?_
  show (match cell entries i j with | [] => none | v :: vs => some (j, vs.foldl Arith.add v)) = _
  cases cell entries i j <;> rfl

/-- If every position occurs at most once, `csr` stores exactly the entries. -/
theorem Mat.csr_of_unique (entries : List (Nat × Nat × α)) (nr nc : Nat)
    (f : Nat → Nat → Option α)
    (h : ∀ i < nr, ∀ j < nc, cell entries i j = (f i j).toList) :
    Mat.csr entries nr nc = Mat.ofFn nr nc f := by
  rw [Mat.csr_eq]
  refine Mat.ofFn_congr fun i hi j hj => ?_
  rw [h i hi j hj]
  cases f i j <;> rfl

/-- Source `i` is recorded as claiming claim `j`. -/
def scRel (l : List (S × V × X)) (i j : Nat) : Bool :=
  match (sources l)[i]?, (claims l)[j]? with
  | some s, some c => decide ((s, c) ∈ recorded l)
  | _, _ => false

/-- Claims `j` and `k` are about the same variable. -/
def mxRel (l : List (S × V × X)) (j k : Nat) : Bool :=
  match (claims l)[j]?, (claims l)[k]? with
  | some c, some d => decide (c.1 = d.1)
  | _, _ => false

/-- Implication value between claims `j` and `k`. -/
def impFn (l : List (S × V × X)) (f : V → X → X → Option α) (j k : Nat) : Option α :=
  match (claims l)[j]?, (claims l)[k]? with
  | some c, some d => if c ≠ d ∧ c.1 = d.1 then f c.1 c.2 d.2 else none
  | _, _ => none

/-- `1` where the relation holds. -/
def oneIf (b : Bool) : Option α := if b then some (Arith.ofNat 1) else none

variable (l : List (S × V × X))

theorem idxOf_eq_iff {κ : Type} [DecidableEq κ] {L : List κ} (hnd : L.Nodup) {a : κ} (ha : a ∈ L)
    {i : Nat} : L.idxOf a = i ↔ L[i]? = some a := by
  constructor
  · rintro rfl
    rw [List.getElem?_eq_getElem (List.idxOf_lt_length_iff.2 ha)]; simp
  · intro h
    obtain ⟨hi, rfl⟩ := List.getElem?_eq_some_iff.1 h
    exact hnd.idxOf_getElem _ _

theorem scMat_eq : (buildOf l).scMat (α := α) =
    Mat.ofFn (sources l).length (claims l).length (fun i j => oneIf (scRel l i j)) := by
  have hlen1 : (buildOf l).sourceIds.length = (sources l).length := by simp [buildOf]
  have hlen2 : (buildOf l).claimIds.length = (claims l).length := by simp [buildOf]
  rw [Build.scMat, hlen1, hlen2]
  apply Mat.csr_of_unique
  intro i hi j hj
  simp only [cell, buildOf, List.map_map, List.filterMap_map]
  have hs : (sources l)[i]? = some (sources l)[i] := List.getElem?_eq_getElem hi
  have hc : (claims l)[j]? = some (claims l)[j] := List.getElem?_eq_getElem hj
  have hR : scRel l i j = decide (((sources l)[i], (claims l)[j]) ∈ recorded l) := by
    simp [scRel, hs, hc]
  have hmem : ∀ t ∈ recorded l, ((sources l).idxOf t.1 = i ∧ (claims l).idxOf t.2 = j ↔
      t = ((sources l)[i], (claims l)[j])) := by
    intro t ht
    have h1 : t.1 ∈ sources l := (mem_sources l).2 ⟨t, recorded_sub l ht, rfl⟩
    have h2 : t.2 ∈ claims l := (mem_claims l).2 ⟨t, ht, rfl⟩
    rw [idxOf_eq_iff (nodup_sources l) h1, idxOf_eq_iff (nodup_claims l) h2, hs, hc]
    simp only [Option.some.injEq, Prod.ext_iff]
    constructor <;> (rintro ⟨a, b⟩; exact ⟨a.symm, b.1.symm, b.2.symm⟩)
  rw [hR]
  by_cases hm : ((sources l)[i], (claims l)[j]) ∈ recorded l
  · simp only [hm, decide_true, oneIf, ↓reduceIte, Option.toList_some]
    refine filterMap_unique (nodup_recorded l) _ hm ?_ ?_
    · have := (hmem _ hm).2 rfl
      simp only [Function.comp_apply, this, and_self, ↓reduceIte]
    · intro t ht hn
      apply (hmem t ht).1
      by_contra hc
      apply hn
      simp [hc]
  · simp only [hm, decide_false, oneIf, Bool.false_eq_true, ↓reduceIte, Option.toList_none,
      List.filterMap_eq_nil_iff]
    intro t ht
    have : ¬ ((sources l).idxOf t.1 = i ∧ (claims l).idxOf t.2 = j) := by
      rw [hmem t ht]; rintro rfl; exact hm ht
    simp [this]

theorem mxRel_iff {j k : Nat} (hj : j < (claims l).length) (hk : k < (claims l).length) :
    mxRel l j k = true ↔ (claims l)[j].1 = (claims l)[k].1 := by
  simp [mxRel, hj, hk]

theorem mutExMat_eq : (buildOf l).mutExMat (α := α) =
    Mat.ofFn (claims l).length (claims l).length (fun i j => oneIf (mxRel l i j)) := by
  have hlen2 : (buildOf l).claimIds.length = (claims l).length := by simp [buildOf]
  rw [Build.mutExMat, hlen2]
  apply Mat.csr_of_unique
  intro i hi j hj
  have hvals : (buildOf l).mutEx.values = (vars l).map (idsAbout (claims l)) := by
    simp only [Dict.values, buildOf, List.map_map]
    conv_rhs => rw [← List.zipIdx_map_fst 0 (vars l)]
    rw [List.map_map]
    rfl
  rw [hvals]
  set P : List (Nat × Nat) := (vars l).flatMap fun v =>
    (idsAbout (claims l) v).flatMap fun i => (idsAbout (claims l) v).map fun j => (i, j) with hP
  have hE : (((vars l).map (idsAbout (claims l))).flatMap fun ids =>
      ids.flatMap fun i => ids.map fun j => (i, j, (Arith.ofNat 1 : α))) =
      P.map fun p => (p.1, p.2, Arith.ofNat 1) := by
    simp only [hP, List.flatMap_map, List.map_flatMap, List.map_map, Function.comp_def]
  rw [hE]
  have hmem : ∀ a b, (a, b) ∈ P ↔ ∃ v ∈ vars l, a ∈ idsAbout (claims l) v ∧
      b ∈ idsAbout (claims l) v := by
    intro a b
    simp only [hP, List.mem_flatMap, List.mem_map, Prod.mk.injEq, exists_eq_right_right]
  have hnd : P.Nodup := by
    rw [hP, List.nodup_flatMap]
    constructor
    · intro v _
      rw [List.nodup_flatMap]
      constructor
      · intro a _
        exact (idsAbout_nodup _ _).map fun x y h => by simpa using h
      · refine (idsAbout_nodup (claims l) v).imp ?_
        intro a b hab
        simp only [Function.onFun, List.disjoint_left]
        intro p hp hp'
        simp only [List.mem_map] at hp hp'
        obtain ⟨x, _, rfl⟩ := hp
        obtain ⟨y, _, e⟩ := hp'
        simp at e; exact hab e.1.symm
    · refine (nodup_vars l).imp ?_
      intro v w hvw
      simp only [Function.onFun, List.disjoint_left]
      intro p hp hp'
      simp only [List.mem_flatMap, List.mem_map] at hp hp'
      obtain ⟨a, ha, x, _, rfl⟩ := hp
      obtain ⟨b, hb, y, _, e⟩ := hp'
      simp only [Prod.mk.injEq] at e
      obtain ⟨h1, e1⟩ := mem_idsAbout.1 ha
      obtain ⟨h2, e2⟩ := mem_idsAbout.1 hb
      rw [e.1] at hb
      obtain ⟨h2, e2⟩ := mem_idsAbout.1 hb
      exact hvw (e1.symm.trans e2)
  have hR := mxRel_iff l hi hj
  have hij : (i, j) ∈ P ↔ mxRel l i j = true := by
    rw [hmem, hR]
    constructor
    · rintro ⟨v, _, ha, hb⟩
      obtain ⟨_, e1⟩ := mem_idsAbout.1 ha
      obtain ⟨_, e2⟩ := mem_idsAbout.1 hb
      exact e1.trans e2.symm
    · intro e
      refine ⟨(claims l)[i].1, claim_var_mem l (List.getElem_mem hi), ?_, ?_⟩
      · exact mem_idsAbout.2 ⟨hi, rfl⟩
      · exact mem_idsAbout.2 ⟨hj, e.symm⟩
  simp only [cell, List.filterMap_map]
  by_cases hm : mxRel l i j = true
  · simp only [hm, oneIf, ↓reduceIte, Option.toList_some]
    refine filterMap_unique hnd _ (hij.2 hm) ?_ ?_
    · simp
    · rintro ⟨a, b⟩ _ hn
      by_contra hc
      apply hn
      simp only [Prod.mk.injEq] at hc
      simp [hc]
  · simp only [hm, oneIf, Bool.false_eq_true, ↓reduceIte, Option.toList_none,
      List.filterMap_eq_nil_iff]
    rintro ⟨a, b⟩ hp
    have : ¬ (a = i ∧ b = j) := by
      rintro ⟨rfl, rfl⟩; exact hm (hij.1 hp)
    simp [this]

theorem nonzero_mutEx (h10 : Arith.eq (Arith.ofNat 1 : α) (Arith.ofNat 0) = false) :
    ((buildOf l).mutExMat (α := α)).nonzero =
      (List.range (claims l).length).flatMap fun j =>
        ((List.range (claims l).length).filter fun k => mxRel l j k).map fun k => (j, k) := by
  rw [mutExMat_eq, Mat.nonzero, Mat.ofFn]
  simp only [enum_map_range, List.flatMap_map]
  refine List.flatMap_congr fun j _ => ?_
  rw [List.filterMap_filterMap]
  induction List.range (claims l).length with
  | nil => rfl
  | cons k L ih =>
    by_cases h : mxRel l j k = true
    · rw [List.filterMap_cons_some (b := (j, k)) (by simp [h, oneIf, h10]), ih,
        List.filter_cons_of_pos h]; rfl
    · rw [List.filterMap_cons_none (by simp [h, oneIf]), ih, List.filter_cons_of_neg h]

theorem mem_nonzero_mutEx (h10 : Arith.eq (Arith.ofNat 1 : α) (Arith.ofNat 0) = false)
    (p : Nat × Nat) : p ∈ ((buildOf l).mutExMat (α := α)).nonzero ↔
      p.1 < (claims l).length ∧ p.2 < (claims l).length ∧ mxRel l p.1 p.2 = true := by
  rw [nonzero_mutEx l h10]
  obtain ⟨a, b⟩ := p
  simp only [List.mem_flatMap, List.mem_map, List.mem_filter, List.mem_range, Prod.mk.injEq]
  constructor
  · rintro ⟨j, hj, k, hk, rfl, rfl⟩; exact ⟨hj, hk.1, hk.2⟩
  · rintro ⟨h1, h2, h3⟩; exact ⟨a, h1, b, ⟨h2, h3⟩, rfl, rfl⟩

theorem nodup_nonzero_mutEx (h10 : Arith.eq (Arith.ofNat 1 : α) (Arith.ofNat 0) = false) :
    ((buildOf l).mutExMat (α := α)).nonzero.Nodup := by
  rw [nonzero_mutEx l h10, List.nodup_flatMap]
  constructor
  · intro j _
    exact (List.nodup_range.filter _).map fun x y h => by simpa using h
  · refine List.nodup_range.imp ?_
    intro a b hab
    simp only [Function.onFun, List.disjoint_left]
    intro p hp hp'
    simp only [List.mem_map] at hp hp'
    obtain ⟨x, _, rfl⟩ := hp
    obtain ⟨y, _, e⟩ := hp'
    simp at e; exact hab e.1.symm

/-- A value outside [-1, 1] in the sense of the code's test. -/
def badImp (x : α) : Bool := Arith.lt x (Arith.lit (-1) 1) || Arith.lt (Arith.lit 1 1) x

theorem impStep_eq (f : V → X → X → Option α) (acc : List (Nat × Nat × α)) (e : Nat × Nat)
    (h1 : e.1 < (claims l).length) (h2 : e.2 < (claims l).length)
    (hm : mxRel l e.1 e.2 = true) :
    (buildOf l).impStep f acc e = match impFn l f e.1 e.2 with
      | none => .ok acc
      | some x => if badImp x then .error .implication else .ok (acc ++ [(e.1, e.2, x)]) := by
  have hv := (mxRel_iff l h1 h2).1 hm
  by_cases he : e.1 = e.2
  · have : impFn l f e.1 e.2 = none := by
      simp [impFn, he, h2]
    simp [Build.impStep, he, this]
    simp [impFn, h2, pure, Except.pure]
  · have hne : (claims l)[e.1] ≠ (claims l)[e.2] := by
      intro h
      exact he ((nodup_claims l).getElem_inj_iff.1 h)
    have hI : impFn l f e.1 e.2 = f (claims l)[e.1].1 (claims l)[e.1].2 (claims l)[e.2].2 := by
      simp [impFn, h1, h2, hne, hv]
    have hinv1 : (buildOf l).claimIds.inv e.1 = .ok (claimKey l (claims l)[e.1]) := by
      simp [buildOf, idmap_inv, h1]
    have hinv2 : (buildOf l).claimIds.inv e.2 = .ok (claimKey l (claims l)[e.2]) := by
      simp [buildOf, idmap_inv, h2]
    have hm1 := List.getElem_mem h1
    have hm2 := List.getElem_mem h2
    have hvar : (buildOf l).varIds.inv (claimKey l (claims l)[e.1]).1 = .ok (claims l)[e.1].1 := by
      have := List.idxOf_lt_length_iff.2 (claim_var_mem l hm1)
      simp [buildOf, idmap_inv, claimKey, this]
    have hval1 : (buildOf l).valHashes.inv (claimKey l (claims l)[e.1]).2 =
        .ok (claims l)[e.1].2 := by
      have := List.idxOf_lt_length_iff.2 (claim_val_mem l hm1)
      simp [buildOf, idmap_inv, claimKey, this]
    have hval2 : (buildOf l).valHashes.inv (claimKey l (claims l)[e.2]).2 =
        .ok (claims l)[e.2].2 := by
      have := List.idxOf_lt_length_iff.2 (claim_val_mem l hm2)
      simp [buildOf, idmap_inv, claimKey, this]
    simp only [Build.impStep, he, ↓reduceIte, hinv1, hinv2, liftPy, bind, Except.bind, hvar,
      hval1, hval2, hI]
    cases f (claims l)[e.1].1 (claims l)[e.1].2 (claims l)[e.2].2 with
    | none => rfl
    | some x =>
      by_cases hb : badImp x = true
      · have hb' := hb
        simp only [badImp] at hb'
        simp [hb, hb', throw, throwThe, MonadExceptOf.throw]
      · have hb' := hb
        simp only [badImp] at hb'
        simp only [hb, hb', ↓reduceIte]; rfl

theorem impFold_eq (f : V → X → X → Option α) (L : List (Nat × Nat))
    (hL : ∀ p ∈ L, p.1 < (claims l).length ∧ p.2 < (claims l).length ∧ mxRel l p.1 p.2 = true)
    (acc : List (Nat × Nat × α)) :
    L.foldlM ((buildOf l).impStep f) acc =
      if L.any (fun p => (impFn l f p.1 p.2).any badImp) then .error .implication
      else .ok (acc ++ L.filterMap fun p => (impFn l f p.1 p.2).map fun x => (p.1, p.2, x)) := by
  induction L generalizing acc with
  | nil => simp; rfl
  | cons p L ih =>
    obtain ⟨h1, h2, h3⟩ := hL p (by simp)
    rw [List.foldlM_cons, impStep_eq l f acc p h1 h2 h3]
    cases hI : impFn l f p.1 p.2 with
    | none =>
      simp only [bind, Except.bind, List.any_cons, hI, Option.any_none, Bool.false_or]
      rw [ih (fun q hq => hL q (by simp [hq]))]
      rw [List.filterMap_cons_none (by simp [hI])]
    | some x =>
      by_cases hb : badImp x = true
      · simp [hb, hI, bind, Except.bind]
      · simp only [hb, Bool.false_eq_true, ↓reduceIte, bind, Except.bind, List.any_cons, hI,
          Option.any_some, Bool.false_or]
        rw [ih (fun q hq => hL q (by simp [hq]))]
        rw [List.filterMap_cons_some (b := (p.1, p.2, x)) (by simp [hI])]
        simp

/-- Some claimed pair of different values of a variable has an implication value out of range. -/
def impBad (f : V → X → X → Option α) : Prop :=
  ∃ c ∈ claims l, ∃ d ∈ claims l, c ≠ d ∧ c.1 = d.1 ∧ ∃ x, f c.1 c.2 d.2 = some x ∧
    badImp x = true

theorem impAny_iff (h10 : Arith.eq (Arith.ofNat 1 : α) (Arith.ofNat 0) = false)
    (f : V → X → X → Option α) :
    ((buildOf l).mutExMat (α := α)).nonzero.any (fun p => (impFn l f p.1 p.2).any badImp) = true ↔
      impBad l f := by
  rw [List.any_eq_true]
  constructor
  · rintro ⟨p, hp, hb⟩
    obtain ⟨h1, h2, h3⟩ := (mem_nonzero_mutEx l h10 p).1 hp
    refine ⟨_, List.getElem_mem h1, _, List.getElem_mem h2, ?_⟩
    simp only [impFn, h1, h2, List.getElem?_eq_getElem] at hb
    split at hb
    · rename_i h
      refine ⟨h.1, h.2, ?_⟩
      rw [Option.any_eq_true] at hb
      obtain ⟨x, hx, hbx⟩ := hb
      exact ⟨x, hx, hbx⟩
    · simp at hb
  · rintro ⟨c, hc, d, hd, hne, hv, x, hx, hb⟩
    obtain ⟨i, hi, rfl⟩ := List.getElem_of_mem hc
    obtain ⟨j, hj, rfl⟩ := List.getElem_of_mem hd
    refine ⟨(i, j), (mem_nonzero_mutEx l h10 _).2 ⟨hi, hj, (mxRel_iff l hi hj).2 hv⟩, ?_⟩
    simp only [impFn, hi, hj, List.getElem?_eq_getElem, ne_eq, hne, not_false_eq_true, hv, and_self,
      ↓reduceIte]
    rw [← hv, hx]; exact hb

theorem impMat_none : (buildOf l).impMat (α := α) none =
    .ok (Mat.ofFn (claims l).length (claims l).length fun _ _ => none) := by
  have hlen2 : (buildOf l).claimIds.length = (claims l).length := by simp [buildOf]
  simp only [Build.impMat, bind, Except.bind, pure, Except.pure, hlen2, List.isEmpty_nil,
    ↓reduceIte]
  congr 1

theorem impMat_some (h10 : Arith.eq (Arith.ofNat 1 : α) (Arith.ofNat 0) = false)
    (f : V → X → X → Option α) (hb : ¬ impBad l f) :
    (buildOf l).impMat (some f) =
      .ok (Mat.ofFn (claims l).length (claims l).length (impFn l f)) := by
  have hlen2 : (buildOf l).claimIds.length = (claims l).length := by simp [buildOf]
  have hfold := impFold_eq l f ((buildOf l).mutExMat (α := α)).nonzero
    (fun p hp => (mem_nonzero_mutEx l h10 p).1 hp) []
  rw [if_neg (by rw [impAny_iff l h10]; exact hb)] at hfold
  simp only [Build.impMat, bind, Except.bind, pure, Except.pure, hlen2, hfold, List.nil_append]
  set L := ((buildOf l).mutExMat (α := α)).nonzero with hLdef
  set E := L.filterMap fun p => (impFn l f p.1 p.2).map fun x => (p.1, p.2, x) with hE
  have hgoal : Mat.csr E (claims l).length (claims l).length =
      Mat.ofFn (claims l).length (claims l).length (impFn l f) := by
    apply Mat.csr_of_unique
    intro i hi j hj
    simp only [cell, hE, List.filterMap_filterMap]
    by_cases hm : mxRel l i j = true
    · have hin : (i, j) ∈ L := (mem_nonzero_mutEx l h10 _).2 ⟨hi, hj, hm⟩
      cases hI : impFn l f i j with
      | none =>
        simp only [Option.toList_none, List.filterMap_eq_nil_iff]
        rintro ⟨a, b⟩ _
        by_cases hab : a = i ∧ b = j
        · obtain ⟨rfl, rfl⟩ := hab; simp [hI]
        · cases impFn l f a b <;> simp [hab]
      | some x =>
        simp only [Option.toList_some]
        refine filterMap_unique (nodup_nonzero_mutEx l h10) _ hin ?_ ?_
        · simp [hI]
        · rintro ⟨a, b⟩ _ hn
          by_contra hab
          simp only [Prod.mk.injEq] at hab
          apply hn
          cases impFn l f a b <;> simp [hab]
    · have hI : impFn l f i j = none := by
        have := mt (mxRel_iff l hi hj).2 hm
        simp [impFn, hi, hj, this]
      rw [hI]
      simp only [Option.toList_none, List.filterMap_eq_nil_iff]
      rintro ⟨a, b⟩ hp
      have : ¬ (a = i ∧ b = j) := by
        rintro ⟨rfl, rfl⟩
        exact hm ((mem_nonzero_mutEx l h10 _).1 hp).2.2
      cases impFn l f a b <;> simp [this]
  by_cases hemp : E.isEmpty = true
  · rw [if_pos hemp]
    have : E = [] := by simpa using hemp
    rw [← hgoal, this]
  · rw [if_neg hemp, hgoal]

theorem impMat_bad (h10 : Arith.eq (Arith.ofNat 1 : α) (Arith.ofNat 0) = false)
    (f : V → X → X → Option α) (hb : impBad l f) :
    (buildOf l).impMat (some f) = .error .implication := by
  have hfold := impFold_eq l f ((buildOf l).mutExMat (α := α)).nonzero
    (fun p hp => (mem_nonzero_mutEx l h10 p).1 hp) []
  rw [if_pos (by rw [impAny_iff l h10]; exact hb)] at hfold
  simp only [Build.impMat, bind, Except.bind, pure, Except.pure, hfold]

/-- Closed form of the matrices of the dataset of the triples `l`. -/
def matsOf (l : List (S × V × X)) (f : Option (V → X → X → Option α)) : Mats α where
  numSources := (sources l).length
  numClaims := (claims l).length
  sc := Mat.ofFn (sources l).length (claims l).length fun i j => oneIf (scRel l i j)
  mutEx := Mat.ofFn (claims l).length (claims l).length fun i j => oneIf (mxRel l i j)
  imp := Mat.ofFn (claims l).length (claims l).length
    (match f with | none => fun _ _ => none | some f => impFn l f)

/-- Closed form of the dataset of the triples `l`. -/
def datasetOf (l : List (S × V × X)) (f : Option (V → X → X → Option α)) :
    Dataset S V X α where
  sourceIds := (sources l).zipIdx
  varIds := (vars l).zipIdx
  valHashes := (vals l).zipIdx
  claimIds := ((claims l).map (claimKey l)).zipIdx
  numVariables := (vars l).length
  mats := matsOf l f

/-- `impBad` for an optional function. -/
def optImpBad (l : List (S × V × X)) : Option (V → X → X → Option α) → Prop
  | none => False
  | some f => impBad l f

/-- The constructor succeeds exactly on admissible inputs, with the closed form. -/
theorem mk'_ok_iff (h10 : Arith.eq (Arith.ofNat 1 : α) (Arith.ofNat 0) = false)
    (am : Bool) (f : Option (V → X → X → Option α)) (d : Dataset S V X α) :
    Dataset.mk' l am f = .ok d ↔
      d = datasetOf l f ∧ (am = true ∨ NoRepeats l) ∧ ¬ optImpBad l f := by
  by_cases hrun : am = true ∨ NoRepeats l
  · have hr : Build.run am l = .ok (buildOf l) := (run_ok_iff am l _).2 ⟨rfl, hrun⟩
    have hmk : ∀ imp : Mat α, (buildOf l).impMat f = .ok imp →
        Dataset.mk' l am f = .ok { datasetOf l f with mats := { matsOf l f with imp := imp } } := by
      intro imp hi
      have e1 : (buildOf l).scMat = (matsOf l f).sc := scMat_eq l
      have e2 : (buildOf l).mutExMat = (matsOf l f).mutEx := mutExMat_eq l
      simp only [Dataset.mk', hr, hi, bind, Except.bind, pure, Except.pure, e1, e2]
      simp [datasetOf, buildOf, matsOf]
    cases f with
    | none =>
      rw [hmk _ (impMat_none l)]
      simp only [hrun, optImpBad, not_false_eq_true, and_self, and_true, Except.ok.injEq]
      exact eq_comm
    | some f =>
      by_cases hb : impBad l f
      · simp only [Dataset.mk', hr, bind, Except.bind, impMat_bad l h10 f hb, optImpBad, hb]
        simp
      · rw [hmk _ (impMat_some l h10 f hb)]
        simp only [hrun, optImpBad, hb, not_false_eq_true, and_self, and_true, Except.ok.injEq]
        exact eq_comm
  · obtain ⟨h1, h2⟩ := not_or.1 hrun
    have ham : am = false := by simpa using h1
    subst ham
    obtain ⟨pre, t, post, rfl, hp, hd⟩ := exists_first_dup l h2
    simp [Dataset.mk', run_dup pre post t hp hd, bind, Except.bind, h2]

end
end TD
