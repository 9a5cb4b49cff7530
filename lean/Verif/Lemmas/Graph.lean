import Verif.Spec.Graph
import Verif.Lemmas.Results
import Verif.Lemmas.Matrix
import Verif.Lemmas.Mats
/-!
# The closed form of `compile`
-/

namespace TD
open Spec

/-! ### Ranks and stable sorting -/
section
variable {β K : Type} [LinearOrder K]

/-- Stable posOf by position. -/
def rankAt (key : β → K) (L : List β) (i : Nat) (c : K) : Nat :=
  (L.filter fun y => decide (key y < c)).length + ((L.take i).filter fun y => decide (key y = c)).length

theorem takeWhile_ne [DecidableEq β] {L : List β} (hnd : L.Nodup) {i : Nat} (hi : i < L.length) :
    (L.takeWhile fun y => decide (y ≠ L[i])) = L.take i := by
  induction L generalizing i with
  | nil => simp at hi
  | cons a L ih =>
    cases i with
    | zero => simp
    | succ i =>
      have hi' : i < L.length := by simpa using hi
      have hne : a ≠ L[i] := by
        intro e; exact (List.nodup_cons.1 hnd).1 (e ▸ List.getElem_mem hi')
      simp only [List.getElem_cons_succ, List.take_succ_cons]
      rw [List.takeWhile_cons_of_pos (by simpa using hne), ih (List.nodup_cons.1 hnd).2]

theorem rank_eq [DecidableEq β] (key : β → K) {L : List β} (hnd : L.Nodup) {i : Nat} (hi : i < L.length) :
    posOf key L L[i] = rankAt key L i (key L[i]) := by
  unfold posOf rankAt
  rw [takeWhile_ne hnd hi]

theorem sorted_split (key : β → K) {M : List β} (h : M.Pairwise fun a b => key a ≤ key b) (c : K) :
    M = (M.filter fun y => decide (key y < c)) ++ (M.filter fun y => decide (key y = c)) ++
      (M.filter fun y => decide (c < key y)) := by
  induction M with
  | nil => simp
  | cons a M ih =>
    obtain ⟨h1, h2⟩ := List.pairwise_cons.1 h
    have ih := ih h2
    rcases lt_trichotomy (key a) c with hc | hc | hc
    · have e1 : ¬ key a = c := ne_of_lt hc
      have e2 : ¬ c < key a := not_lt_of_gt hc
      simp only [List.filter_cons, hc, e1, e2, decide_true, decide_false, if_true, List.cons_append,
        Bool.false_eq_true, if_false]
      rw [← ih]
    · have e1 : ¬ key a < c := by rw [hc]; exact lt_irrefl _
      have e2 : ¬ c < key a := by rw [hc]; exact lt_irrefl _
      have e3 : (M.filter fun y => decide (key y < c)) = [] := by
        rw [List.filter_eq_nil_iff]
        intro y hy
        simpa using hc ▸ h1 y hy
      rw [e3] at ih
      simp only [List.filter_cons, hc, lt_irrefl, decide_true, decide_false, if_true, e3]
      conv_lhs => rw [ih]
      simp
    · have e1 : ¬ key a = c := ne_of_gt hc
      have e2 : ¬ key a < c := not_lt_of_gt hc
      have e3 : (M.filter fun y => decide (key y < c)) = [] := by
        rw [List.filter_eq_nil_iff]
        intro y hy
        simpa using le_of_lt (lt_of_lt_of_le hc (h1 y hy))
      have e4 : (M.filter fun y => decide (key y = c)) = [] := by
        rw [List.filter_eq_nil_iff]
        intro y hy
        simpa using ne_of_gt (lt_of_lt_of_le hc (h1 y hy))
      rw [e3, e4] at ih
      simp only [List.filter_cons, hc, e1, e2, e3, e4, decide_true, decide_false, if_true]
      conv_lhs => rw [ih]
      simp

theorem idxOf_filter [DecidableEq β] {L : List β} (hnd : L.Nodup) (p : β → Bool) {i : Nat}
    (hi : i < L.length) (hp : p L[i] = true) :
    (L.filter p).idxOf L[i] = ((L.take i).filter p).length := by
  induction L generalizing i with
  | nil => simp at hi
  | cons a L ih =>
    cases i with
    | zero => simp at hp; simp [hp]
    | succ i =>
      have hi' : i < L.length := by simpa using hi
      have hne : a ≠ L[i] := by
        intro e; exact (List.nodup_cons.1 hnd).1 (e ▸ List.getElem_mem hi')
      simp only [List.getElem_cons_succ] at hp
      have := ih (List.nodup_cons.1 hnd).2 hi' hp
      simp only [List.getElem_cons_succ, List.take_succ_cons, List.filter_cons]
      by_cases ha : p a
      · simp only [ha, if_true, List.length_cons]
        rw [List.idxOf_cons_ne _ hne, this]
      · simp only [ha, if_false]; exact this

/-- Position of a member after stable sorting. -/
theorem idxOf_sorted [DecidableEq β] {lt : β → β → Bool} (key : β → K)
    (hlt : ∀ x y, lt x y = decide (key x < key y)) {L : List β} (hnd : L.Nodup) {i : Nat}
    (hi : i < L.length) : (pySorted lt L).idxOf L[i] = rankAt key L i (key L[i]) := by
  obtain ⟨s1, s2, s3⟩ := pySorted_spec (k := key) hlt L
  have hsplit := sorted_split key s1 (key L[i])
  rw [hsplit, List.append_assoc, List.idxOf_append_of_notMem, List.idxOf_append_of_mem, s3]
  · rw [rankAt, idxOf_filter hnd _ hi (by simp)]
    congr 1
    exact (s2.filter _).length_eq
  · rw [s3]
    exact List.mem_filter.2 ⟨List.getElem_mem hi, by simp⟩
  · intro h
    simpa using (List.mem_filter.1 h).2

end

/-! ### Dictionaries from ids -/
section
variable {β K : Type}

/-- The dictionary from positions. -/
def tab (L : List β) (g : β → K) : Dict Nat K := (enum L).map fun p => (p.1, g p.2)

theorem tab_eq (L : List β) (g : β → K) : tab L g = enum (L.map g) := by
  simp [tab, enum, List.zipIdx_map, Function.comp_def]

theorem length_enum (L : List β) : (enum L).length = L.length := by simp [enum]

theorem getElem_enum (L : List β) {i : Nat} (h : i < (enum L).length) :
    (enum L)[i] = (i, L[i]'(by simpa [length_enum] using h)) := by
  simp [enum]

theorem keys_enum (L : List β) : (enum L).map Prod.fst = List.range L.length := by
  simp [enum, Function.comp_def, List.zipIdx_map_snd, List.range_eq_range']

theorem get_enumG (L : List β) (i : Nat) : Dict.get? (enum L) i = L[i]? := by
  cases h : L[i]? with
  | some x =>
    exact lookup_some_of_mem (nodup_enum_fst L) (mem_enum'.2 h)
  | none =>
    apply lookup_none_of_not_mem
    rw [keys_enum, List.mem_range]
    simpa using h

theorem get_tab (L : List β) (g : β → K) {i : Nat} (hi : i < L.length) :
    Dict.get? (tab L g) i = some (g L[i]) := by
  rw [tab_eq, get_enumG]; simp [hi]

theorem keys_tab (L : List β) (g : β → K) : (tab L g).map Prod.fst = List.range L.length := by
  rw [tab_eq, keys_enum, List.length_map]

/-- A loop over ids `0, 1, …` filling a dictionary. -/
theorem fold_tab {L : List β} {g : β → K} {γ : Type} {items : List γ} {id : γ → Nat}
    {f : Dict Nat K → γ → Except PyErr (Dict Nat K)} (hids : items.map id = List.range L.length)
    (hf : ∀ acc, ∀ p ∈ items, ∀ h : id p < L.length, f acc p = .ok (acc.set (id p) (g L[id p]))) :
    items.foldlM f [] = .ok (tab L g) := by
  have key : ∀ (items : List γ) (n : Nat) (hn : n ≤ L.length), items.map id = List.range n →
      (∀ acc, ∀ p ∈ items, ∀ h : id p < L.length, f acc p = .ok (acc.set (id p) (g L[id p]))) →
      items.foldlM f [] = .ok (tab (L.take n) g) := by
    intro items
    induction items using List.reverseRecOn with
    | nil =>
      intro n hn h _
      have : n = 0 := by
        have := congrArg List.length h
        simpa using this.symm
      subst this
      rfl
    | append_singleton items p ih =>
      intro n hn h hf
      obtain ⟨m, rfl⟩ : ∃ m, n = m + 1 := by
        refine ⟨n - 1, ?_⟩
        have := congrArg List.length h
        simp at this; omega
      rw [List.map_append, List.range_succ] at h
      have h' := List.append_inj' h (by simp)
      have hp : id p = m := by simpa using h'.2
      rw [List.foldlM_append, ih m (by omega) h'.1 fun acc q hq => hf acc q (by simp [hq])]
      show List.foldlM f _ [p] = _
      rw [List.foldlM_cons, hf _ p (by simp) (by omega)]
      show Except.ok _ = _
      congr 1
      rw [dict_set_new]
      · simp only [tab]
        rw [List.take_add_one, List.getElem?_eq_getElem (by omega)]
        simp only [Option.toList_some, enum_append, List.map_append, List.map_cons, List.map_nil, hp]
        simp; omega
      · rw [keys_tab]; simp [hp]
  have := key items L.length le_rfl hids hf
  rwa [List.take_length] at this

variable [LinearOrder K]

/-- Coordinates by sorted position. -/
theorem place_get [DecidableEq β] {lt : K → K → Bool} (hlt : ∀ x y, lt x y = decide (x < y)) {L : List β}
    (hnd : L.Nodup) (g : β → K) (coord : Nat → ℝ × ℝ) {i : Nat} (hi : i < L.length) :
    (Renderer.place coord (Renderer.sortKeysByValue lt (tab L g))).get? i =
      some (coord (posOf g L L[i])) := by
  classical
  set T : List (Nat × K) := tab L g with hT
  have hTn : (T.map Prod.fst).Nodup := by rw [hT, keys_tab]; exact List.nodup_range
  have hTn' : T.Nodup := hTn.of_map _
  have hlen : T.length = L.length := by
    rw [hT, tab_eq, length_enum, List.length_map]
  have hTi : T[i]'(by omega) = (i, g L[i]) := by
    simp only [hT, tab_eq]
    rw [getElem_enum]; simp
  have hlt' : ∀ x y : Nat × K, lt x.2 y.2 = decide (x.2 < y.2) := fun x y => hlt _ _
  obtain ⟨s1, s2, -⟩ := pySorted_spec (k := fun p : Nat × K => p.2) (lt := fun p q => lt p.2 q.2) hlt' T
  set M := pySorted (fun p q : Nat × K => lt p.2 q.2) T with hM
  have hMn : (M.map Prod.fst).Nodup := (s2.map Prod.fst).nodup_iff.2 hTn
  unfold Renderer.place Renderer.sortKeysByValue
  rw [← hM]
  have hpairs : (((enum (M.map Prod.fst)).map fun p => (p.2, coord p.1)).map Prod.fst) = M.map Prod.fst := by
    rw [List.map_map]
    have : (Prod.fst ∘ fun p : Nat × Nat => (p.2, coord p.1)) = Prod.snd := rfl
    rw [this]
    simp [enum, Function.comp_def, List.zipIdx_map_fst]
  rw [ofPairs_nodup (by rw [hpairs]; exact hMn)]
  have hidx : M.idxOf (i, g L[i]) = posOf g L L[i] := by
    rw [rank_eq g hnd hi]
    have := idxOf_sorted (fun p : Nat × K => p.2) hlt' hTn' (i := i) (by omega)
    rw [hTi] at this
    rw [hM]
    refine Eq.trans (by congr!) (this.trans ?_)
    unfold rankAt
    simp only [hT, tab_eq]
    have e1 : ∀ (N : List K) (q : K → Bool), ((enum N).filter fun p => q p.2).length =
        (N.filter q).length := by
      intro N q
      have : (enum N).map Prod.snd = N := by simp [enum, Function.comp_def, List.zipIdx_map_fst]
      conv_rhs => rw [← this, List.filter_map, List.length_map]
      rfl
    have e2 : (enum (L.map g)).take i = enum ((L.map g).take i) := by
      unfold enum
      rw [← List.map_take]
      congr 1
      apply List.ext_getElem?
      intro j
      simp only [List.getElem?_take, List.getElem?_zipIdx]
      split <;> simp_all
    rw [e1 _ (fun y => decide (y < g L[i])), e2, e1 _ (fun y => decide (y = g L[i])), ← List.map_take,
      List.filter_map, List.filter_map, List.length_map, List.length_map]
    rfl
  have hmem : (i, g L[i]) ∈ M := s2.mem_iff.2 (hTi ▸ List.getElem_mem _)
  have hlt2 : M.idxOf (i, g L[i]) < M.length := List.idxOf_lt_length_iff.2 hmem
  refine lookup_some_of_mem (by rw [hpairs]; exact hMn) ?_
  refine List.mem_map.2 ⟨(posOf g L L[i], i), ?_, rfl⟩
  rw [mem_enum', ← hidx]
  show (M.map Prod.fst)[M.idxOf (i, g L[i])]? = some i
  rw [List.getElem?_map, List.getElem?_eq_getElem hlt2, List.getElem_idxOf hlt2]
  rfl

end

/-! ### Lists by position -/
section
variable {β γ δ : Type}

theorem flatMap_idx {L : List β} {A : Nat → List γ} {G : β → List γ}
    (h : ∀ i (hi : i < L.length), A i = G L[i]) :
    (List.range L.length).flatMap A = L.flatMap G := by
  induction L using List.reverseRecOn with
  | nil => rfl
  | append_singleton L x ih =>
    rw [List.length_append, List.length_singleton, List.range_succ, List.flatMap_append,
      List.flatMap_append, ih fun i hi => by
        rw [h i (by simp; omega), List.getElem_append_left hi]]
    congr 1
    have := h L.length (by simp)
    simp at this
    simp [this]

theorem filter_flatMap_idx {L : List β} {p : Nat → Bool} {g : Nat → List γ} {q : β → Bool}
    {G : β → List γ} (h : ∀ i (hi : i < L.length), p i = q L[i])
    (h' : ∀ i (hi : i < L.length), g i = G L[i]) :
    ((List.range L.length).filter p).flatMap g = (L.filter q).flatMap G := by
  induction L using List.reverseRecOn with
  | nil => rfl
  | append_singleton L x ih =>
    rw [List.length_append, List.length_singleton, List.range_succ, List.filter_append,
      List.filter_append, List.flatMap_append, List.flatMap_append, ih]
    · congr 1
      have a := h L.length (by simp)
      have b := h' L.length (by simp)
      simp at a b
      by_cases hx : q x <;> simp [a, b, hx, List.filter_cons]
    · intro i hi
      rw [h i (by simp; omega), List.getElem_append_left hi]
    · intro i hi
      rw [h' i (by simp; omega), List.getElem_append_left hi]

theorem yields_ok {L : List β} {F : β → Except PyErr (List γ)} {G : β → List γ}
    (h : ∀ x ∈ L, F x = .ok (G x)) : Renderer.yields L F = .ok (L.flatMap G) := by
  induction L with
  | nil => rfl
  | cons a L ih =>
    unfold Renderer.yields
    rw [h a (by simp), ih fun x hx => h x (by simp [hx])]
    rfl

theorem yields_zipIdx {A : List β} {k : β → δ} {F : δ × Nat → Except PyErr (List γ)}
    {G : β → List γ} (h : ∀ i (hi : i < A.length), F (k A[i], i) = .ok (G A[i])) :
    Renderer.yields ((A.map k).zipIdx) F = .ok (A.flatMap G) := by
  have e : (A.map k).zipIdx = (List.range A.length).attach.map fun i =>
      (k (A[i.1]'(List.mem_range.1 i.2)), i.1) := by
    apply List.ext_getElem
    · simp
    · intro i h1 h2
      simp
  have : Renderer.yields ((A.map k).zipIdx) F =
      .ok (((A.map k).zipIdx).flatMap fun p => if hp : p.2 < A.length then G A[p.2] else []) := by
    apply yields_ok
    intro p hp
    obtain ⟨q, i⟩ := p
    have := List.mem_zipIdx hp
    have hi : i < A.length := by simpa using this.2.1
    have hq : q = k A[i] := by
      have := this.2.2
      simpa using this
    subst hq
    simp only [hi, dite_true]
    exact h i hi
  rw [this, e, List.flatMap_map]
  congr 1
  have key := flatMap_idx (L := A) (A := fun i => if hi : i < A.length then G A[i] else []) (G := G)
    (fun i hi => by simp [hi])
  rw [← key]
  conv_rhs => rw [← List.attach_map_subtype_val (List.range A.length)]
  rw [List.flatMap_map]

theorem mapM_ok_of {L : List β} {F : β → Except PyErr γ} {G : β → γ} (h : ∀ x ∈ L, F x = .ok (G x)) :
    L.mapM F = .ok (L.map G) := by
  induction L with
  | nil => rfl
  | cons a L ih =>
    rw [List.mapM_cons, h a (by simp), ih fun x hx => h x (by simp [hx])]
    rfl

end

/-! ### The dictionaries of `compile` -/
section
variable {S V X L α : Type} [DecidableEq S] [DecidableEq V] [DecidableEq X] [LinearOrder L] [Arith α]
variable (r : Renderer S V X L) (l : List (S × V × X)) (f : Option (V → X → X → Option α)) (H : Int)

theorem inv_source {i : Nat} (h : i < (sources l).length) :
    (datasetOf l f).sourceIds.inv i = .ok (sources l)[i] := by simp [datasetOf, idmap_inv, h]

theorem inv_var {i : Nat} (h : i < (vars l).length) :
    (datasetOf l f).varIds.inv i = .ok (vars l)[i] := by simp [datasetOf, idmap_inv, h]

theorem inv_claim {i : Nat} (h : i < (claims l).length) :
    (datasetOf l f).claimIds.inv i = .ok (claimKey l (claims l)[i]) := by
  simp [datasetOf, idmap_inv, h]

theorem inv_claim_var {c : V × X} (h : c ∈ claims l) :
    (datasetOf l f).varIds.inv (claimKey l c).1 = .ok c.1 := by
  have := List.idxOf_lt_length_iff.2 (claim_var_mem l h)
  simp [datasetOf, idmap_inv, claimKey, this]

theorem inv_claim_val {c : V × X} (h : c ∈ claims l) :
    (datasetOf l f).valHashes.inv (claimKey l c).2 = .ok c.2 := by
  have := List.idxOf_lt_length_iff.2 (claim_val_mem l h)
  simp [datasetOf, idmap_inv, claimKey, this]

/-- Members of `claim_ids.items()`. -/
theorem mem_claimIds {p : (Nat × Nat) × Nat} (hp : p ∈ (datasetOf l f).claimIds) :
    ∃ h : p.2 < (claims l).length, p.1 = claimKey l (claims l)[p.2] := by
  have := List.mem_zipIdx (xs := (claims l).map (claimKey l)) (i := p.2) (x := p.1) (k := 0) hp
  refine ⟨by simpa using this.2.1, ?_⟩
  simpa using this.2.2

omit [LinearOrder L] in
theorem labels_eq [DecidableEq L] : r.labels (datasetOf l f) =
    .ok (tab (sources l) r.srcLabel, tab (vars l) r.varLabel,
      tab (claims l) fun c => r.claimLabel c.1 c.2) := by
  unfold Renderer.labels
  have values : ∀ {κ : Type} (A : List κ), Dict.values (A.zipIdx) = List.range A.length := by
    intro κ A
    simp [Dict.values, List.zipIdx_map_snd, List.range_eq_range']
  have h1 := fold_tab (L := sources l) (g := r.srcLabel) (items := (datasetOf l f).sourceIds.values)
    (id := fun i => i) (f := fun (acc : Dict Nat L) i => do
      return acc.set i (r.srcLabel (← (datasetOf l f).sourceIds.inv i)))
    (by simp [datasetOf, values]) (by
      intro acc p _ h
      rw [inv_source l f h]; rfl)
  have h2 := fold_tab (L := vars l) (g := r.varLabel) (items := (datasetOf l f).varIds.values)
    (id := fun i => i) (f := fun (acc : Dict Nat L) i => do
      return acc.set i (r.varLabel (← (datasetOf l f).varIds.inv i)))
    (by simp [datasetOf, values]) (by
      intro acc p _ h
      rw [inv_var l f h]; rfl)
  have h3 := fold_tab (L := claims l) (g := fun c => r.claimLabel c.1 c.2)
    (items := (datasetOf l f).claimIds) (id := fun p => p.2)
    (f := fun (acc : Dict Nat L) p => do
      return acc.set p.2 (r.claimLabel (← (datasetOf l f).varIds.inv p.1.1)
        (← (datasetOf l f).valHashes.inv p.1.2)))
    (by simp [datasetOf, List.zipIdx_map_snd, List.range_eq_range']) (by
      intro acc p hp h
      obtain ⟨hlt, e⟩ := mem_claimIds l f hp
      rw [e, inv_claim_var l f (List.getElem_mem _), inv_claim_val l f (List.getElem_mem _)]; rfl)
  rw [h1, h2, h3]
  rfl

theorem get_ok {κ ν : Type} [DecidableEq κ] {d : Dict κ ν} {k : κ} {x : ν} (h : d.get? k = some x) :
    d.get k = .ok x := by simp [Dict.get, h]

theorem get_tab' {β K : Type} (A : List β) (g : β → K) {i : Nat} (hi : i < A.length) :
    Dict.get (tab A g) i = .ok (g A[i]) := get_ok (get_tab A g hi)

theorem get_tab_idx {β K : Type} [DecidableEq β] (A : List β) (g : β → K) {x : β} (hx : x ∈ A) :
    Dict.get (tab A g) (A.idxOf x) = .ok (g x) := by
  rw [get_tab' A g (List.idxOf_lt_length_iff.2 hx)]
  simp

omit [LinearOrder L] in
theorem claimSortKeys_eq [DecidableEq L] (cl : V × X → L) : Renderer.claimSortKeys (datasetOf l f)
    (tab (vars l) r.varLabel) (tab (claims l) cl) =
      .ok (tab (claims l) fun c => (r.varLabel c.1, cl c)) := by
  unfold Renderer.claimSortKeys
  refine fold_tab (id := fun p => p.2) (by simp [datasetOf, List.zipIdx_map_snd, List.range_eq_range']) ?_
  intro acc p hp h
  obtain ⟨hlt, e⟩ := mem_claimIds l f hp
  rw [e, get_tab' _ _ hlt]
  have := get_tab_idx (vars l) r.varLabel (claim_var_mem l (List.getElem_mem hlt))
  show (do let a ← Dict.get _ _; _) = _
  rw [show (claimKey l (claims l)[p.2]).1 = (vars l).idxOf (claims l)[p.2].1 from rfl, this]
  rfl

theorem yCoord_eq (i n : Nat) : r.yCoord H i n = level r H i n := by
  unfold Renderer.yCoord level
  by_cases h : n ≤ 1
  · rw [if_neg (by omega), if_pos h]
  · rw [if_pos (by omega), if_neg h]
    ring

variable (hlt : ∀ a b, r.lt a b = decide (a < b))
include hlt

theorem ltPair_eq (p q : L × L) : r.ltPair p q = decide (toLex p < toLex q) := by
  unfold Renderer.ltPair
  simp only [hlt]
  by_cases h : p.1 = q.1
  · rw [if_pos h, decide_eq_decide, Prod.Lex.toLex_lt_toLex]
    simp [h]
  · rw [if_neg h, decide_eq_decide, Prod.Lex.toLex_lt_toLex]
    simp [h]

theorem sourceCoords_get {i : Nat} (hi : i < (sources l).length) :
    Dict.get (Renderer.place (fun i => (r.nodeRadius, r.yCoord H i (datasetOf l f).mats.numSources))
      (Renderer.sortKeysByValue r.lt (tab (sources l) r.srcLabel))) i =
      .ok (sourceAt r l H (sources l)[i]) := by
  apply get_ok
  rw [place_get hlt (nodup_sources l) r.srcLabel _ hi, yCoord_eq]
  rfl

theorem claimCoords_get {i : Nat} (hi : i < (claims l).length) :
    Dict.get (Renderer.place (fun i => (r.width / 2, r.yCoord H i (datasetOf l f).mats.numClaims))
      (Renderer.sortKeysByValue r.ltPair
        (tab (claims l) fun c => (r.varLabel c.1, r.claimLabel c.1 c.2)))) i =
      .ok (claimAt r l H (claims l)[i]) := by
  apply get_ok
  have := place_get (K := Lex (L × L)) (lt := r.ltPair) (ltPair_eq r hlt) (nodup_claims l)
    (fun c => toLex (r.varLabel c.1, r.claimLabel c.1 c.2))
    (fun i => (r.width / 2, r.yCoord H i (datasetOf l f).mats.numClaims)) hi
  refine Eq.trans this ?_
  rw [yCoord_eq]
  rfl

omit hlt in
theorem claims_of_var {i : Nat} (hi : i < (vars l).length) (G : V × X → ℝ)
    {g : (Nat × Nat) × Nat → ℝ} (hg : ∀ j (hj : j < (claims l).length),
      g (claimKey l (claims l)[j], j) = G (claims l)[j]) :
    ((datasetOf l f).claimIds.filter fun p => decide (p.1.1 = i)).map g =
      ((claims l).filter fun c => decide (c.1 = (vars l)[i])).map G := by
  have hz : (datasetOf l f).claimIds = (claims l).zipIdx.map fun q => (claimKey l q.1, q.2) := by
    simp [datasetOf, List.zipIdx_map, Prod.map]
  rw [hz, List.filter_map, List.map_map]
  have e1 : ((claims l).zipIdx.filter ((fun p : (Nat × Nat) × Nat => decide (p.1.1 = i)) ∘
      fun q => (claimKey l q.1, q.2))) =
      (claims l).zipIdx.filter ((fun c : V × X => decide (c.1 = (vars l)[i])) ∘ Prod.fst) := by
    apply List.filter_congr
    intro q hq
    have hq := List.mem_zipIdx (x := q.1) (i := q.2) hq
    have hm : q.1 ∈ claims l := by
      rw [hq.2.2]; exact List.getElem_mem _
    refine decide_eq_decide.2 ?_
    show (vars l).idxOf q.1.1 = i ↔ q.1.1 = (vars l)[i]
    rw [idxOf_eq_iff (nodup_vars l) (claim_var_mem l hm), List.getElem?_eq_getElem hi]
    simp [eq_comm]
  rw [e1]
  have e2 : ∀ q ∈ (claims l).zipIdx.filter ((fun c : V × X => decide (c.1 = (vars l)[i])) ∘ Prod.fst),
      (g ∘ fun q : (V × X) × Nat => (claimKey l q.1, q.2)) q = (G ∘ Prod.fst) q := by
    intro q hq
    have hq := List.mem_zipIdx (x := q.1) (i := q.2) (List.mem_of_mem_filter hq)
    have hj : q.2 < (claims l).length := by simpa using hq.2.1
    have e : q.1 = (claims l)[q.2] := by simpa using hq.2.2
    show g (claimKey l q.1, q.2) = G q.1
    rw [e]; exact hg _ hj
  rw [List.map_congr_left e2, ← List.map_map, ← List.filter_map]
  simp [List.zipIdx_map_fst]

theorem varCoords_eq {claimCoords : Dict Nat (ℝ × ℝ)}
    (hc : ∀ j (hj : j < (claims l).length), claimCoords.get j = .ok (claimAt r l H (claims l)[j])) :
    ∃ D, r.varCoords (datasetOf l f) (tab (vars l) r.varLabel) claimCoords = .ok D ∧
      ∀ i (hi : i < (vars l).length), D.get i = .ok (variableAt r l H (vars l)[i]) := by
  have hperm : (Renderer.sortKeysByValue r.lt (tab (vars l) r.varLabel)).Perm
      (List.range (vars l).length) := by
    rw [← keys_tab (vars l) r.varLabel]
    exact (pySorted_spec (k := fun p : Nat × L => p.2) (lt := fun p q => r.lt p.2 q.2)
      (fun x y => hlt _ _) _).2.1.map _
  have hnd := hperm.nodup_iff.2 List.nodup_range
  have hf := foldlM_set (ks := Renderer.sortKeysByValue r.lt (tab (vars l) r.varLabel))
    (f := fun (acc : Dict Nat (ℝ × ℝ)) i => do
      let ys ← ((datasetOf l f).claimIds.filter fun p => decide (p.1.1 = i)).mapM fun p => do
        return (← claimCoords.get p.2).2
      return acc.set i (r.width - r.nodeRadius, Renderer.mean ys))
    (g := fun i => if h : i < (vars l).length then some (variableAt r l H (vars l)[i]) else none)
    (by
      intro i hi acc
      have hi' : i < (vars l).length := List.mem_range.1 (hperm.mem_iff.1 hi)
      simp only [hi', dite_true]
      have hm := mapM_ok_of (L := (datasetOf l f).claimIds.filter fun p => decide (p.1.1 = i))
        (F := fun p : (Nat × Nat) × Nat => (do return (← claimCoords.get p.2).2 : Except PyErr ℝ))
        (G := fun p => if h : p.2 < (claims l).length then (claimAt r l H (claims l)[p.2]).2 else 0)
        (by
          intro p hp
          obtain ⟨hj, -⟩ := mem_claimIds l f (List.mem_of_mem_filter hp)
          rw [hc _ hj]
          simp only [hj, dite_true]
          rfl)
      rw [hm, claims_of_var l f hi' (fun c => (claimAt r l H c).2) (by
        intro j hj; simp only [hj, dite_true])]
      rfl) hnd
  refine ⟨_, hf, ?_⟩
  intro i hi
  apply get_ok
  refine lookup_some_of_mem ?_ ?_
  · rw [keys_filterMap]
    exact hnd.filter _
  · refine List.mem_filterMap.2 ⟨i, hperm.mem_iff.2 (List.mem_range.2 hi), ?_⟩
    simp [hi]

end

/-! ### Edges and nodes -/
section
variable {S V X L α : Type} [DecidableEq S] [DecidableEq V] [DecidableEq X] [LinearOrder L] [Arith α]
variable (r : Renderer S V X L) (l : List (S × V × X)) (f : Option (V → X → X → Option α)) (H : Int)

omit [LinearOrder L] in
theorem unit_eq (a b : ℝ × ℝ) : unit a b =
    (Real.cos (Renderer.atan2 (b.2 - a.2) (b.1 - a.1)),
      Real.sin (Renderer.atan2 (b.2 - a.2) (b.1 - a.1))) := by
  unfold unit Renderer.atan2
  have hn : ‖(⟨b.1 - a.1, b.2 - a.2⟩ : ℂ)‖ =
      Real.sqrt ((b.1 - a.1) ^ 2 + (b.2 - a.2) ^ 2) := by
    rw [Complex.norm_eq_sqrt_sq_add_sq]
  simp only
  by_cases h : (⟨b.1 - a.1, b.2 - a.2⟩ : ℂ) = 0
  · rw [← hn, h, norm_zero, if_pos rfl, Complex.arg_zero, Real.cos_zero, Real.sin_zero]
  · rw [← hn, if_neg (by simpa using h), Complex.cos_arg h, Complex.sin_arg]

omit [DecidableEq S] [DecidableEq V] [DecidableEq X] [LinearOrder L] in
theorem compileEdge_eq (a b : ℝ × ℝ) : r.compileEdge a b = edge r a b := by
  unfold Renderer.compileEdge edge Spec.segment wing tip
  simp only [unit_eq, Renderer.rotate, List.map_cons, List.map_nil]
  set θ := Renderer.atan2 (b.2 - a.2) (b.1 - a.1)
  rw [show (-1 : ℝ) * (Real.pi / 7) + θ = -(Real.pi / 7) + θ by ring,
    show (1 : ℝ) * (Real.pi / 7) + θ = Real.pi / 7 + θ by ring]
  simp only [Real.cos_add, Real.sin_add]
  simp only [List.cons.injEq, Entity.line.injEq, and_true, true_and]
  refine ⟨⟨?_, ?_, ?_, ?_⟩, ?_, ?_, ?_, ?_⟩ <;> ring

theorem nonzero_sc (h10 : Arith.eq (Arith.ofNat 1 : α) (Arith.ofNat 0) = false) :
    (datasetOf l f).mats.sc.nonzero =
      (List.range (sources l).length).flatMap fun i =>
        ((List.range (claims l).length).filter fun j => scRel l i j).map fun j => (i, j) := by
  show (Mat.ofFn _ _ _).nonzero = _
  rw [Mat.nonzero, Mat.ofFn]
  simp only [enum_map_range, List.flatMap_map]
  refine List.flatMap_congr fun j _ => ?_
  rw [List.filterMap_filterMap]
  induction List.range (claims l).length with
  | nil => rfl
  | cons k L ih =>
    by_cases h : scRel l j k = true
    · rw [List.filterMap_cons_some (b := (j, k)) (by simp [h, oneIf, h10]), ih,
        List.filter_cons_of_pos h]; rfl
    · rw [List.filterMap_cons_none (by simp [h, oneIf]), ih, List.filter_cons_of_neg h]

theorem compileNode_eq {hint : NodeHint S V X} {c : Colour × Colour × Colour}
    (h : r.colours.node hint = .ok c) (label : L) (p : ℝ × ℝ) :
    r.compileNode hint label p = .ok (node r c (r.str label) p) := by
  unfold Renderer.compileNode
  rw [h]
  rfl

/-- If the colours of the first claim cannot be determined, compiling fails. -/
theorem body_claim_error (h10 : Arith.eq (Arith.ofNat 1 : α) (Arith.ofNat 0) = false)
    (hlt : ∀ a b, r.lt a b = decide (a < b)) {e : PyErr} {c : V × X} (hc : (claims l).head? = some c)
    (hcol : r.colours.node (.claim c.1 c.2) = .error e) (progress : Option ℝ) :
    r.body H (datasetOf l f) progress = .error e := by
  obtain ⟨D, hD, hDget⟩ := varCoords_eq r l f H hlt
    (fun j hj => claimCoords_get r l f H hlt (i := j) hj)
  unfold Renderer.body Renderer.coords
  rw [labels_eq]
  simp only [bind, Except.bind, pure, Except.pure]
  rw [claimSortKeys_eq]
  simp only
  rw [hD]
  simp only
  rw [yields_ok (G := fun p => (if h : p.1 < (sources l).length then
      if h' : p.2 < (claims l).length then
        edge r (sourceAt r l H (sources l)[p.1]) (claimAt r l H (claims l)[p.2]) else [] else []))]
  swap
  · intro p hp
    rw [nonzero_sc l f h10] at hp
    obtain ⟨i, hi, hp⟩ := List.mem_flatMap.1 hp
    obtain ⟨j, hj, rfl⟩ := List.mem_map.1 hp
    have hi := List.mem_range.1 hi
    have hj := List.mem_range.1 (List.mem_of_mem_filter hj)
    simp only [hi, hj, dite_true]
    rw [inv_claim l f hj, inv_source l f hi]
    simp only
    rw [inv_claim_val l f (List.getElem_mem hj), sourceCoords_get r l f H hlt hi,
      claimCoords_get r l f H hlt hj]
    simp only
    rw [compileEdge_eq]
  simp only
  have hpos : 0 < (claims l).length := by
    cases h : claims l with
    | nil => rw [h] at hc; cases hc
    | cons a L => simp
  have hc0 : (claims l)[0] = c := by
    rw [List.head?_eq_getElem?, List.getElem?_eq_getElem hpos] at hc
    exact Option.some.inj hc
  have hm : (claims l)[0] ∈ claims l := List.getElem_mem hpos
  have hv := List.idxOf_lt_length_iff.2 (claim_var_mem l hm)
  have hids : ∃ rest, (datasetOf l f).claimIds = (claimKey l (claims l)[0], 0) :: rest := by
    rw [show (datasetOf l f).claimIds = ((claims l).map (claimKey l)).zipIdx from rfl]
    have : ∀ (A : List (V × X)) (h : 0 < A.length), ∃ rest,
        (A.map (claimKey l)).zipIdx = (claimKey l A[0], 0) :: rest := by
      intro A h
      cases A with
      | nil => cases h
      | cons a A => exact ⟨_, by simp only [List.map_cons, List.zipIdx_cons]; rfl⟩
    exact this _ hpos
  obtain ⟨rest, hids⟩ := hids
  rw [hids]
  unfold Renderer.yields
  simp only [bind, Except.bind]
  rw [inv_claim_val l f hm, inv_claim_var l f hm]
  simp only
  rw [claimCoords_get r l f H hlt hpos]
  simp only
  rw [show (claimKey l (claims l)[0]).1 = (vars l).idxOf (claims l)[0].1 from rfl, hDget _ hv,
    get_tab' _ _ hpos]
  simp only
  unfold Renderer.compileNode
  rw [← hc0] at hcol
  rw [hcol]
  rfl

theorem body_eq (h10 : Arith.eq (Arith.ofNat 1 : α) (Arith.ofNat 0) = false)
    (hlt : ∀ a b, r.lt a b = decide (a < b)) {colour : NodeHint S V X → Colour × Colour × Colour}
    (hcol : ∀ h, IsNode l h → r.colours.node h = .ok (colour h)) (progress : Option ℝ) :
    (do return Entity.rect 0 0 r.colours.background r.width H ::
      (← r.body H (datasetOf l f) progress) : Except PyErr (List Entity)) =
      .ok (picture r l H colour progress) := by
  obtain ⟨D, hD, hDget⟩ := varCoords_eq r l f H hlt
    (fun j hj => claimCoords_get r l f H hlt (i := j) hj)
  unfold Renderer.body Renderer.coords
  rw [labels_eq]
  simp only [bind, Except.bind, pure, Except.pure]
  rw [claimSortKeys_eq]
  simp only
  rw [hD]
  simp only
  rw [yields_ok (G := fun p => (if h : p.1 < (sources l).length then
      if h' : p.2 < (claims l).length then
        edge r (sourceAt r l H (sources l)[p.1]) (claimAt r l H (claims l)[p.2]) else [] else []))]
  swap
  · intro p hp
    rw [nonzero_sc l f h10] at hp
    obtain ⟨i, hi, hp⟩ := List.mem_flatMap.1 hp
    obtain ⟨j, hj, rfl⟩ := List.mem_map.1 hp
    have hi := List.mem_range.1 hi
    have hj := List.mem_range.1 (List.mem_of_mem_filter hj)
    simp only [hi, hj, dite_true]
    rw [inv_claim l f hj, inv_source l f hi]
    simp only
    rw [inv_claim_val l f (List.getElem_mem hj), sourceCoords_get r l f H hlt hi,
      claimCoords_get r l f H hlt hj]
    simp only
    rw [compileEdge_eq]
  simp only
  rw [show (datasetOf l f).claimIds = ((claims l).map (claimKey l)).zipIdx from rfl,
    yields_zipIdx (G := fun c => edge r (claimAt r l H c) (variableAt r l H c.1) ++
      node r (colour (.claim c.1 c.2)) (r.str (r.claimLabel c.1 c.2)) (claimAt r l H c))]
  swap
  · intro j hj
    have hm := List.getElem_mem hj
    have hv := List.idxOf_lt_length_iff.2 (claim_var_mem l hm)
    rw [inv_claim_val l f hm, inv_claim_var l f hm]
    simp only
    rw [claimCoords_get r l f H hlt hj]
    simp only
    rw [show (claimKey l (claims l)[j]).1 = (vars l).idxOf (claims l)[j].1 from rfl, hDget _ hv,
      get_tab' _ _ hj]
    simp only
    rw [compileNode_eq r (hcol _ (.claim _ hm)), compileEdge_eq]
    simp only [List.getElem_idxOf]
  simp only
  rw [show (datasetOf l f).varIds = ((vars l).map id).zipIdx by simp [datasetOf],
    yields_zipIdx (G := fun v => node r (colour (.var v)) (r.str (r.varLabel v))
      (variableAt r l H v))]
  swap
  · intro j hj
    rw [hDget _ hj, get_tab' _ _ hj]
    simp only
    exact compileNode_eq r (hcol _ (.var _ (List.getElem_mem hj))) _ _
  simp only
  rw [show (datasetOf l f).sourceIds = ((sources l).map id).zipIdx by simp [datasetOf],
    yields_zipIdx (G := fun s => node r (colour (.source s)) (r.str (r.srcLabel s))
      (sourceAt r l H s))]
  swap
  · intro j hj
    rw [sourceCoords_get r l f H hlt hj, get_tab' _ _ hj]
    simp only
    exact compileNode_eq r (hcol _ (.source _ (List.getElem_mem hj))) _ _
  simp only
  congr 1
  unfold picture
  rw [nonzero_sc l f h10]
  simp only [List.append_assoc, List.cons_append, List.nil_append, List.cons.injEq, true_and]
  congr 1
  · rw [List.flatMap_assoc]
    unfold madeClaims
    rw [List.flatMap_assoc]
    refine flatMap_idx fun i hi => ?_
    simp only [List.flatMap_map]
    refine filter_flatMap_idx (fun j hj => ?_) (fun j hj => ?_)
    · simp [scRel, hi, hj]
    · simp [hi, hj]

end

/-! ### Positions -/
section
variable {β K : Type} [DecidableEq β] [LinearOrder K] (key : β → K) {L : List β} (hnd : L.Nodup)
include hnd

theorem rank_idx {x : β} (hx : x ∈ L) :
    posOf key L x = (pySorted (fun a b => decide (key a < key b)) L).idxOf x := by
  obtain ⟨i, hi, rfl⟩ := List.getElem_of_mem hx
  rw [rank_eq key hnd hi]
  exact (idxOf_sorted (lt := fun a b => decide (key a < key b)) key (fun _ _ => rfl) hnd hi).symm

theorem rank_lt_length {x : β} (hx : x ∈ L) : posOf key L x < L.length := by
  rw [rank_idx key hnd hx]
  obtain ⟨-, hp, -⟩ := pySorted_spec (lt := fun a b => decide (key a < key b)) (k := key)
    (fun _ _ => rfl) L
  rw [← hp.length_eq]
  exact List.idxOf_lt_length_iff.2 (hp.mem_iff.2 hx)

theorem rank_inj {x y : β} (hx : x ∈ L) (hy : y ∈ L) (h : posOf key L x = posOf key L y) : x = y := by
  rw [rank_idx key hnd hx, rank_idx key hnd hy] at h
  obtain ⟨-, hp, -⟩ := pySorted_spec (lt := fun a b => decide (key a < key b)) (k := key)
    (fun _ _ => rfl) L
  exact idxOf_inj_of_mem (hp.mem_iff.2 hx) h

theorem rank_mono {x y : β} (hx : x ∈ L) (hy : y ∈ L) (h : key x < key y) :
    posOf key L x < posOf key L y := by
  obtain ⟨hs, hp, -⟩ := pySorted_spec (lt := fun a b => decide (key a < key b)) (k := key)
    (fun _ _ => rfl) L
  by_contra hc
  rcases lt_or_eq_of_le (not_lt.1 hc) with hc | hc
  · rw [rank_idx key hnd hx, rank_idx key hnd hy] at hc
    have hx' := List.idxOf_lt_length_iff.2 (hp.mem_iff.2 hx)
    have hy' := List.idxOf_lt_length_iff.2 (hp.mem_iff.2 hy)
    have := List.pairwise_iff_getElem.1 hs _ _ hy' hx' hc
    rw [List.getElem_idxOf hx', List.getElem_idxOf hy'] at this
    exact absurd h (not_lt.2 this)
  · have := rank_inj key hnd hx hy hc.symm
    subst this
    exact lt_irrefl _ h

end

end TD
