import Verif.Lemmas.Mats

namespace TD
open Spec
attribute [-instance] instBEqProd

section dict
variable {κ ν : Type} [DecidableEq κ]

theorem lookup_map_key (ks : List κ) (f : κ → ν) (k : κ) :
    List.lookup k (ks.map fun k => (k, f k)) = if k ∈ ks then some (f k) else none := by
  induction ks with
  | nil => simp
  | cons a ks ih =>
    simp only [List.map_cons, List.lookup_cons, ih, List.mem_cons]
    by_cases h : k = a
    · subst h; simp
    · have : (k == a) = false := by simp [h]
      simp [this, h]

theorem dict_set_map (ks : List κ) (f : κ → ν) (k : κ) (x : ν) :
    Dict.set (ks.map fun k => (k, f k)) k x =
      (if k ∈ ks then ks else ks ++ [k]).map fun k' => (k', if k' = k then x else f k') := by
  by_cases h : k ∈ ks
  · simp only [Dict.set, Dict.has, Dict.get?, lookup_map_key, h, ↓reduceIte, Option.isSome_some,
      List.map_map]
    refine List.map_congr_left fun a _ => ?_
    simp only [Function.comp_apply]
    split <;> simp_all
  · simp only [Dict.set, Dict.has, Dict.get?, lookup_map_key, h, ↓reduceIte, Option.isSome_none,
      Bool.false_eq_true, List.map_append, List.map_cons, List.map_nil]
    congr 1
    refine List.map_congr_left fun a ha => ?_
    have : a ≠ k := by rintro rfl; exact h ha
    simp [this]

theorem lookup_none_of_not_mem {d : List (κ × ν)} {k : κ} (h : k ∉ d.map Prod.fst) :
    d.lookup k = none := by
  induction d with
  | nil => rfl
  | cons a d ih =>
    simp only [List.map_cons, List.mem_cons, not_or] at h
    have : (k == a.1) = false := by simp [h.1]
    rw [List.lookup_cons, this]
    exact ih h.2

theorem dict_set_new {d : Dict κ ν} {k : κ} (h : k ∉ d.map Prod.fst) (x : ν) :
    Dict.set d k x = d ++ [(k, x)] := by
  simp [Dict.set, Dict.has, Dict.get?, lookup_none_of_not_mem h]

theorem lookup_some_of_mem {d : List (κ × ν)} (hnd : (d.map Prod.fst).Nodup) {k : κ} {x : ν}
    (h : (k, x) ∈ d) : d.lookup k = some x := by
  induction d with
  | nil => simp at h
  | cons a d ih =>
    simp only [List.map_cons, List.nodup_cons] at hnd
    rw [List.lookup_cons]
    rcases List.mem_cons.1 h with h | h
    · subst h; simp
    · have : (k == a.1) = false := by
        have : a.1 ≠ k := by
          rintro e
          exact hnd.1 (List.mem_map.2 ⟨(k, x), h, e.symm⟩)
        simp [Ne.symm this]
      rw [this]; exact ih hnd.2 h

theorem mem_of_lookup_some {d : List (κ × ν)} {k : κ} {x : ν} (h : d.lookup k = some x) :
    (k, x) ∈ d := by
  induction d with
  | nil => simp at h
  | cons a d ih =>
    rw [List.lookup_cons] at h
    by_cases e : k = a.1
    · have : (k == a.1) = true := by simp [e]
      rw [this] at h
      simp at h; subst h; subst e; simp
    · have : (k == a.1) = false := by simp [e]
      rw [this] at h
      exact List.mem_cons_of_mem _ (ih h)

theorem lookup_eq_some_iff {d : List (κ × ν)} (hnd : (d.map Prod.fst).Nodup) {k : κ} {x : ν} :
    d.lookup k = some x ↔ (k, x) ∈ d :=
  ⟨mem_of_lookup_some, lookup_some_of_mem hnd⟩

end dict

theorem enum_append {β : Type} (l : List β) (x : β) : enum (l ++ [x]) = enum l ++ [(l.length, x)] := by
  simp [enum, List.zipIdx_append]

variable {S V X α : Type} [DecidableEq S] [DecidableEq V] [DecidableEq X]

/-- Belief dictionary of the scores `y` of the claims `cs`. -/
def beliefOf (cs : List (V × X)) (y : List α) : Dict V (Dict X α) :=
  (firsts (cs.map Prod.fst)).map fun v =>
    (v, (cs.zip y).filterMap fun p => if p.1.1 = v then some (p.1.2, p.2) else none)

theorem beliefOf_step (cs : List (V × X)) (y : List α) (c : V × X) (a : α)
    (hlen : cs.length = y.length) (hc : c ∉ cs) :
    (let acc := beliefOf cs y
     let acc := if acc.has c.1 then acc else acc.set c.1 []
     acc.set c.1 (((acc.get? c.1).getD []).set c.2 a)) = beliefOf (cs ++ [c]) (y ++ [a]) := by
  set f : V → Dict X α := fun v =>
    (cs.zip y).filterMap fun p => if p.1.1 = v then some (p.1.2, p.2) else none with hf
  set ks := firsts (cs.map Prod.fst) with hks
  have hkeys : ∀ v, (f v).map Prod.fst = cs.filterMap fun c => if c.1 = v then some c.2 else none := by
    intro v
    simp only [hf, List.map_filterMap]
    have e : cs = (cs.zip y).map Prod.fst := by
      rw [List.map_fst_zip]; omega
    conv_rhs => rw [e, List.filterMap_map]
    refine List.filterMap_congr fun p _ => ?_
    simp only [Function.comp_apply]; split <;> simp
  have hnew : c.2 ∉ (f c.1).map Prod.fst := by
    rw [hkeys]
    intro h
    obtain ⟨d, hd, e⟩ := List.mem_filterMap.1 h
    split at e
    · rename_i h1
      simp at e
      apply hc
      rwa [show c = d from Prod.ext h1.symm e.symm]
    · simp at e
  have hempty : c.1 ∉ ks → f c.1 = [] := by
    intro h
    have : (f c.1).map Prod.fst = [] := by
      rw [hkeys, List.filterMap_eq_nil_iff]
      intro d hd
      have : d.1 ≠ c.1 := by
        rintro e; apply h; rw [hks, mem_firsts, ← e]; exact List.mem_map_of_mem hd
      simp [this]
    simpa using this
  have hks' : firsts ((cs ++ [c]).map Prod.fst) = if c.1 ∈ ks then ks else ks ++ [c.1] := by
    rw [List.map_append, List.map_cons, List.map_nil, firsts_append]
    simp only [hks, mem_firsts]
  have hf' : ∀ v, ((cs ++ [c]).zip (y ++ [a])).filterMap
      (fun p => if p.1.1 = v then some (p.1.2, p.2) else none) =
      if v = c.1 then f v ++ [(c.2, a)] else f v := by
    intro v
    rw [List.zip_append hlen, List.filterMap_append]
    by_cases h : v = c.1
    · subst h; simp [hf]
    · have : ¬ c.1 = v := fun e => h e.symm
      simp [hf, h, this]
  have hfin : beliefOf (cs ++ [c]) (y ++ [a]) = (if c.1 ∈ ks then ks else ks ++ [c.1]).map
      fun v => (v, if v = c.1 then f v ++ [(c.2, a)] else f v) := by
    simp only [beliefOf, hks', hf']
  have hB : beliefOf cs y = ks.map fun v => (v, f v) := rfl
  rw [hfin]
  generalize beliefOf cs y = B at hB ⊢
  dsimp only
  by_cases hv : c.1 ∈ ks
  · have h1 : B.get? c.1 = some (f c.1) := by
      simp [hB, Dict.get?, lookup_map_key, hv]
    have h2 : B.has c.1 = true := by simp [Dict.has, h1]
    rw [if_pos h2, h1, Option.getD_some, dict_set_new hnew, hB, dict_set_map, if_pos hv]
    refine List.map_congr_left fun v _ => ?_
    split <;> simp_all
  · have h1 : B.get? c.1 = none := by
      simp [hB, Dict.get?, lookup_map_key, hv]
    have h2 : ¬ B.has c.1 = true := by simp [Dict.has, h1]
    have h3 : B.set c.1 [] = (ks ++ [c.1]).map fun v => (v, f v) := by
      rw [hB, dict_set_map, if_neg hv]
      refine List.map_congr_left fun v _ => ?_
      split
      · rename_i e; rw [e, hempty hv]
      · rfl
    have h4 : Dict.get? ((ks ++ [c.1]).map fun v => (v, f v)) c.1 = some (f c.1) := by
      rw [Dict.get?, lookup_map_key]; simp
    rw [if_neg h2, h3, h4, Option.getD_some, dict_set_new hnew, dict_set_map, if_pos (by simp),
      if_neg hv]
    refine List.map_congr_left fun v _ => ?_
    split <;> simp_all

variable [Arith α] (l : List (S × V × X)) (f : Option (V → X → X → Option α))

theorem beliefDict_eq (y : List α) (hy : y.length ≤ (claims l).length) :
    (datasetOf l f).beliefDict y = .ok (beliefOf ((claims l).take y.length) y) := by
  induction y using List.reverseRecOn with
  | nil => simp [Dataset.beliefDict, enum, beliefOf, firsts, firstsBy]; rfl
  | append_singleton y a ih =>
    simp only [List.length_append, List.length_cons, List.length_nil] at hy
    have ih' := ih (by omega)
    unfold Dataset.beliefDict at ih' ⊢
    rw [enum_append, List.foldlM_append, ih']
    have hk : y.length < (claims l).length := by omega
    have hinv : (datasetOf l f).claimIds.inv y.length = .ok (claimKey l (claims l)[y.length]) := by
      simp [datasetOf, idmap_inv, hk]
    have hm1 := List.getElem_mem hk
    have hvar : (datasetOf l f).varIds.inv (claimKey l (claims l)[y.length]).1 =
        .ok (claims l)[y.length].1 := by
      have := List.idxOf_lt_length_iff.2 (claim_var_mem l hm1)
      simp [datasetOf, idmap_inv, claimKey, this]
    have hval : (datasetOf l f).valHashes.inv (claimKey l (claims l)[y.length]).2 =
        .ok (claims l)[y.length].2 := by
      have := List.idxOf_lt_length_iff.2 (claim_val_mem l hm1)
      simp [datasetOf, idmap_inv, claimKey, this]
    simp only [bind, Except.bind, List.foldlM_cons, List.foldlM_nil, hinv, hvar, hval, pure,
      Except.pure]
    have hnot : (claims l)[y.length] ∉ (claims l).take y.length := by
      intro h
      obtain ⟨i, hi, e⟩ := List.mem_take_iff_getElem.1 h
      have := (nodup_claims l).getElem_inj_iff.1 e
      omega
    have hstep := beliefOf_step ((claims l).take y.length) y (claims l)[y.length] a
      (by simp; omega) hnot
    simp only at hstep
    rw [hstep, List.length_append, List.length_singleton, List.take_append_getElem hk]

theorem trustDict_eq (y : List α) (hy : y.length ≤ (sources l).length) :
    (datasetOf l f).trustDict y = .ok ((sources l).zip y) := by
  have key : (datasetOf l f).trustDict y = .ok (((sources l).take y.length).zip y) := by
    induction y using List.reverseRecOn with
    | nil => simp [Dataset.trustDict, enum]; rfl
    | append_singleton y a ih =>
      simp only [List.length_append, List.length_cons, List.length_nil] at hy
      have ih' := ih (by omega)
      unfold Dataset.trustDict at ih' ⊢
      rw [enum_append, List.foldlM_append, ih']
      have hk : y.length < (sources l).length := by omega
      have hinv : (datasetOf l f).sourceIds.inv y.length = .ok (sources l)[y.length] := by
        simp [datasetOf, idmap_inv, hk]
      simp only [bind, Except.bind, List.foldlM_cons, List.foldlM_nil, hinv, pure, Except.pure]
      have hnot : (sources l)[y.length] ∉ (((sources l).take y.length).zip y).map Prod.fst := by
        rw [List.map_fst_zip (by simp; omega)]
        intro h
        obtain ⟨i, hi, e⟩ := List.mem_take_iff_getElem.1 h
        have := (nodup_sources l).getElem_inj_iff.1 e
        omega
      rw [dict_set_new hnot, List.length_append, List.length_singleton,
        ← List.take_append_getElem hk, List.zip_append (by simp; omega)]
      rfl
  rw [key]
  congr 1
  conv_rhs => rw [← List.take_append_drop y.length (sources l)]
  conv_rhs => rw [show y = y ++ [] by simp]
  rw [List.zip_append (by simp; omega)]
  simp

omit [DecidableEq X] in
theorem inner_nodup {cs : List (V × X)} (hcs : cs.Nodup) (y : List α) (v : V) :
    (((cs.zip y).filterMap fun p => if p.1.1 = v then some (p.1.2, p.2) else none).map
      Prod.fst).Nodup := by
  induction cs generalizing y with
  | nil => simp
  | cons c cs ih =>
    cases y with
    | nil => simp
    | cons a y =>
      simp only [List.nodup_cons] at hcs
      have ih' := ih hcs.2 y
      by_cases h : c.1 = v
      · simp only [List.zip_cons_cons, List.filterMap_cons, h, ↓reduceIte, List.map_cons,
          List.nodup_cons, ih', and_true]
        intro hm
        simp only [List.map_filterMap, List.mem_filterMap] at hm
        obtain ⟨p, hp, e⟩ := hm
        split at e
        · rename_i h1
          simp at e
          apply hcs.1
          rw [show c = p.1 from Prod.ext (h.trans h1.symm) e.symm]
          exact (List.of_mem_zip hp).1
        · simp at e
      · simpa [h] using ih'

theorem mem_beliefOf {cs : List (V × X)} (hcs : cs.Nodup) {y : List α}
    {v : V} {x : X} {a : α} :
    ((beliefOf cs y).get? v).bind (fun d => d.get? x) = some a ↔
      ∃ j : Nat, cs[j]? = some (v, x) ∧ y[j]? = some a := by
  have h0 : (beliefOf cs y).get? v = if v ∈ firsts (cs.map Prod.fst) then
      some ((cs.zip y).filterMap fun p => if p.1.1 = v then some (p.1.2, p.2) else none)
      else none := by
    simp only [beliefOf, Dict.get?]; exact lookup_map_key _ _ _
  have h1 : ((x, a) ∈ (cs.zip y).filterMap fun p => if p.1.1 = v then some (p.1.2, p.2) else none) ↔
      ∃ j : Nat, cs[j]? = some (v, x) ∧ y[j]? = some a := by
    simp only [List.mem_filterMap]
    constructor
    · rintro ⟨⟨c, b⟩, hp, e⟩
      obtain ⟨j, hj⟩ := List.mem_iff_getElem?.1 hp
      rw [List.getElem?_zip_eq_some] at hj
      refine ⟨j, ?_⟩
      split at e
      · rename_i h
        simp only [Option.some.injEq, Prod.mk.injEq] at e
        refine ⟨?_, ?_⟩
        · rw [hj.1]; congr 1; exact Prod.ext h e.1
        · rw [hj.2, e.2]
      · simp at e
    · rintro ⟨j, h1, h2⟩
      refine ⟨((v, x), a), ?_, by simp⟩
      rw [List.mem_iff_getElem?]
      exact ⟨j, List.getElem?_zip_eq_some.2 ⟨h1, h2⟩⟩
  rw [h0]
  by_cases hv : v ∈ firsts (cs.map Prod.fst)
  · rw [if_pos hv, Option.bind_some, Dict.get?, lookup_eq_some_iff (inner_nodup hcs y v), h1]
  · rw [if_neg hv]
    simp only [Option.bind_none, reduceCtorEq, false_iff]
    rintro ⟨j, h, _⟩
    apply hv
    rw [mem_firsts]
    exact List.mem_map.2 ⟨(v, x), List.mem_of_getElem? h, rfl⟩

end TD
