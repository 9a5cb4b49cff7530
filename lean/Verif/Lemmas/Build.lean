import Verif.Lemmas.IDMap
import Mathlib.Data.List.Induction

namespace TD
open Spec
attribute [-instance] instBEqProd
variable {S V X : Type} [DecidableEq S] [DecidableEq V] [DecidableEq X]

/-- Ids of the claims about variable `v`, increasing. -/
def idsAbout (cs : List (V × X)) (v : V) : List Nat :=
  cs.zipIdx.filterMap fun p => if p.1.1 = v then some p.2 else none

/-- The id pair under which a claim is stored. -/
def claimKey (l : List (S × V × X)) (c : V × X) : Nat × Nat :=
  ((vars l).idxOf c.1, (vals l).idxOf c.2)

/-- Closed form of the loop state after the triples `l`. -/
def buildOf (l : List (S × V × X)) : Build S V X where
  sourceIds := (sources l).zipIdx
  varIds := (vars l).zipIdx
  valHashes := (vals l).zipIdx
  claimIds := ((claims l).map (claimKey l)).zipIdx
  pairs := (recorded l).map fun t => ((sources l).idxOf t.1, (vars l).idxOf t.2.1)
  sc := (recorded l).map fun t => ((sources l).idxOf t.1, (claims l).idxOf t.2)
  mutEx := (vars l).zipIdx.map fun p => (p.2, idsAbout (claims l) p.1)

section facts
variable (l : List (S × V × X))

theorem mem_sources {s : S} : s ∈ sources l ↔ ∃ t ∈ l, t.1 = s := by
  simp [sources, mem_firsts]
theorem mem_vars {v : V} : v ∈ vars l ↔ ∃ t ∈ l, t.2.1 = v := by
  simp [vars, mem_firsts]
theorem mem_vals {x : X} : x ∈ vals l ↔ ∃ t ∈ l, t.2.2 = x := by
  simp [vals, mem_firsts]
theorem mem_claims {c : V × X} : c ∈ claims l ↔ ∃ t ∈ recorded l, t.2 = c := by
  simp [claims, mem_firsts]
theorem recorded_sub {t : S × V × X} (h : t ∈ recorded l) : t ∈ l := mem_firstsBy_sub h

theorem recorded_pair_iff {s : S} {v : V} :
    (∃ t ∈ recorded l, t.1 = s ∧ t.2.1 = v) ↔ ∃ t ∈ l, t.1 = s ∧ t.2.1 = v := by
  have := map_key_firstsBy (fun t : S × V × X => (t.1, t.2.1)) l (s, v)
  simpa [recorded] using this

theorem recorded_append (t : S × V × X) :
    recorded (l ++ [t]) =
      if ∃ u ∈ l, u.1 = t.1 ∧ u.2.1 = t.2.1 then recorded l else recorded l ++ [t] := by
  simp only [recorded, firstsBy_append, List.mem_map, Prod.mk.injEq]

theorem recorded_unique {t u : S × V × X} (ht : t ∈ recorded l) (hu : u ∈ recorded l)
    (h1 : t.1 = u.1) (h2 : t.2.1 = u.2.1) : t = u := by
  have h := nodup_map_firstsBy (fun t : S × V × X => (t.1, t.2.1)) l
  exact List.inj_on_of_nodup_map h ht hu (by simp [h1, h2])

theorem nodup_recorded : (recorded l).Nodup :=
  (nodup_map_firstsBy (fun t : S × V × X => (t.1, t.2.1)) l).of_map _

theorem nodup_sources : (sources l).Nodup := nodup_firsts _
theorem nodup_vars : (vars l).Nodup := nodup_firsts _
theorem nodup_vals : (vals l).Nodup := nodup_firsts _
theorem nodup_claims : (claims l).Nodup := nodup_firsts _

theorem claim_var_mem {c : V × X} (h : c ∈ claims l) : c.1 ∈ vars l := by
  obtain ⟨t, ht, rfl⟩ := (mem_claims l).1 h
  exact (mem_vars l).2 ⟨t, recorded_sub l ht, rfl⟩
theorem claim_val_mem {c : V × X} (h : c ∈ claims l) : c.2 ∈ vals l := by
  obtain ⟨t, ht, rfl⟩ := (mem_claims l).1 h
  exact (mem_vals l).2 ⟨t, recorded_sub l ht, rfl⟩

theorem claimKey_inj {c d : V × X} (hc : c ∈ claims l)
    (h : claimKey l c = claimKey l d) : c = d := by
  simp only [claimKey, Prod.mk.injEq] at h
  exact Prod.ext (idxOf_inj_of_mem (claim_var_mem l hc) h.1)
    (idxOf_inj_of_mem (claim_val_mem l hc) h.2)

theorem nodup_claimKeys : ((claims l).map (claimKey l)).Nodup :=
  (nodup_claims l).map_on fun _ hx _ _ h => claimKey_inj l hx h

theorem sources_append (t : S × V × X) :
    sources (l ++ [t]) = if t.1 ∈ sources l then sources l else sources l ++ [t.1] := by
  simp only [sources, List.map_append, List.map_cons, List.map_nil, firsts_append, mem_firsts]
theorem vars_append (t : S × V × X) :
    vars (l ++ [t]) = if t.2.1 ∈ vars l then vars l else vars l ++ [t.2.1] := by
  simp only [vars, List.map_append, List.map_cons, List.map_nil, firsts_append, mem_firsts]
theorem vals_append (t : S × V × X) :
    vals (l ++ [t]) = if t.2.2 ∈ vals l then vals l else vals l ++ [t.2.2] := by
  simp only [vals, List.map_append, List.map_cons, List.map_nil, firsts_append, mem_firsts]

theorem sources_idx_append (t : S × V × X) {s : S} (h : s ∈ sources l) :
    (sources (l ++ [t])).idxOf s = (sources l).idxOf s := by
  rw [sources_append]; split
  · rfl
  · exact idxOf_append_of_mem' h
theorem vars_idx_append (t : S × V × X) {s : V} (h : s ∈ vars l) :
    (vars (l ++ [t])).idxOf s = (vars l).idxOf s := by
  rw [vars_append]; split
  · rfl
  · exact idxOf_append_of_mem' h
theorem vals_idx_append (t : S × V × X) {s : X} (h : s ∈ vals l) :
    (vals (l ++ [t])).idxOf s = (vals l).idxOf s := by
  rw [vals_append]; split
  · rfl
  · exact idxOf_append_of_mem' h

theorem claimKey_append (t : S × V × X) {c : V × X} (h : c ∈ claims l) :
    claimKey (l ++ [t]) c = claimKey l c := by
  simp [claimKey, vars_idx_append l t (claim_var_mem l h), vals_idx_append l t (claim_val_mem l h)]

theorem pairs_mem (t : S × V × X) :
    ((sources (l ++ [t])).idxOf t.1, (vars (l ++ [t])).idxOf t.2.1) ∈ (buildOf l).pairs ↔
      ∃ u ∈ l, u.1 = t.1 ∧ u.2.1 = t.2.1 := by
  rw [← recorded_pair_iff]
  simp only [buildOf, List.mem_map, Prod.mk.injEq]
  refine exists_congr fun u => and_congr_right fun hu => ?_
  have hs : u.1 ∈ sources l := (mem_sources l).2 ⟨u, recorded_sub l hu, rfl⟩
  have hv : u.2.1 ∈ vars l := (mem_vars l).2 ⟨u, recorded_sub l hu, rfl⟩
  rw [← sources_idx_append l t hs, ← vars_idx_append l t hv]
  have hs' : u.1 ∈ sources (l ++ [t]) := (mem_sources _).2 ⟨u, by simp [recorded_sub l hu], rfl⟩
  have hv' : u.2.1 ∈ vars (l ++ [t]) := (mem_vars _).2 ⟨u, by simp [recorded_sub l hu], rfl⟩
  constructor
  · rintro ⟨h1, h2⟩; exact ⟨idxOf_inj_of_mem hs' h1, idxOf_inj_of_mem hv' h2⟩
  · rintro ⟨h1, h2⟩; rw [h1, h2]; exact ⟨rfl, rfl⟩

theorem idsAbout_append (cs : List (V × X)) (c : V × X) (v : V) :
    idsAbout (cs ++ [c]) v = if c.1 = v then idsAbout cs v ++ [cs.length] else idsAbout cs v := by
  simp only [idsAbout, List.zipIdx_append, List.filterMap_append]
  by_cases h : c.1 = v <;> simp [h]

theorem idsAbout_lt {cs : List (V × X)} {v : V} {i : Nat} (h : i ∈ idsAbout cs v) :
    i < cs.length := by
  simp only [idsAbout, List.mem_filterMap] at h
  obtain ⟨p, hp, h⟩ := h
  have := List.mem_zipIdx hp
  split at h <;> simp at h
  omega

theorem mem_idsAbout {cs : List (V × X)} {v : V} {i : Nat} :
    i ∈ idsAbout cs v ↔ ∃ h : i < cs.length, cs[i].1 = v := by
  simp only [idsAbout, List.mem_filterMap]
  constructor
  · rintro ⟨p, hp, h⟩
    have := List.mem_zipIdx hp
    split at h <;> simp at h
    subst h
    refine ⟨by omega, ?_⟩
    have e := this.2.2
    simp at e
    rw [← e]; assumption
  · rintro ⟨h, e⟩
    refine ⟨(cs[i], i), ?_, by simp [e]⟩
    rw [List.mem_zipIdx_iff_getElem?]; simp [h]

theorem idsAbout_eq (cs : List (V × X)) (v : V) :
    idsAbout cs v = (cs.zipIdx.filter fun p => decide (p.1.1 = v)).map Prod.snd := by
  unfold idsAbout
  induction cs.zipIdx with
  | nil => rfl
  | cons a l ih => by_cases h : a.1.1 = v <;> simp [h, ih]

theorem idsAbout_nodup (cs : List (V × X)) (v : V) : (idsAbout cs v).Nodup := by
  rw [idsAbout_eq]
  have h : (cs.zipIdx.map Prod.snd).Nodup := by simp [List.nodup_range']
  exact (List.filter_sublist.map _).nodup h

theorem claims_append (t : S × V × X) :
    claims (l ++ [t]) =
      if ∃ u ∈ l, u.1 = t.1 ∧ u.2.1 = t.2.1 then claims l
      else if t.2 ∈ claims l then claims l else claims l ++ [t.2] := by
  simp only [claims, recorded_append]
  split
  · rfl
  · simp only [List.map_append, List.map_cons, List.map_nil, firsts_append, mem_firsts]

theorem mutEx_lookup (vs : List V) (hvs : vs.Nodup) (f : V → List Nat) (v : V) :
    Dict.get? (vs.zipIdx.map fun p => (p.2, f p.1)) (vs.idxOf v) =
      if v ∈ vs then some (f v) else none := by
  have key : ∀ (vs : List V) (n : Nat), vs.Nodup →
      (List.lookup (n + vs.idxOf v) ((vs.zipIdx n).map fun p => (p.2, f p.1)) =
      if v ∈ vs then some (f v) else none) := by
    intro vs
    induction vs with
    | nil => intro n _; simp
    | cons a l ih =>
      intro n hnd
      simp only [List.nodup_cons] at hnd
      simp only [List.zipIdx_cons, List.map_cons, List.lookup_cons]
      by_cases h : a = v
      · subst h; simp
      · have h' : (n + (a :: l).idxOf v == n) = false := by simp [List.idxOf_cons, h]
        have h2 : n + (a :: l).idxOf v = (n + 1) + l.idxOf v := by
          simp [List.idxOf_cons, h]; omega
        have h3 : ¬ v = a := fun e => h e.symm
        rw [h']
        simp only [h2, ih (n + 1) hnd.2, List.mem_cons, h3, false_or]
  simpa [Dict.get?] using key vs 0 hvs

theorem mutEx_set (vs : List V) (hvs : vs.Nodup) (f : V → List Nat) (v : V) (new : List Nat) :
    Dict.set (vs.zipIdx.map fun p => (p.2, f p.1)) (vs.idxOf v) new =
      ((if v ∈ vs then vs else vs ++ [v]).zipIdx.map
        fun p => (p.2, if p.1 = v then new else f p.1)) := by
  by_cases h : v ∈ vs
  · simp only [Dict.set, Dict.has, mutEx_lookup vs hvs f v, h, ↓reduceIte, Option.isSome_some,
      List.map_map]
    refine List.map_congr_left fun p hp => ?_
    have hp' := List.mem_zipIdx hp
    simp only [Function.comp_apply]
    have e : vs[p.2]'(by omega) = p.1 := by
      have := hp'.2.2; simp at this; exact this.symm
    have hi : vs.idxOf p.1 = p.2 := by rw [← e]; exact hvs.idxOf_getElem _ _
    by_cases hv : p.1 = v
    · have : p.2 = vs.idxOf v := by rw [← hi, hv]
      simp [this, hv]
    · have : p.2 ≠ vs.idxOf v := by
        intro e2
        exact hv (idxOf_inj_of_mem (by rw [← e]; simp) (hi.trans e2))
      simp [this, hv]
  · simp only [Dict.set, Dict.has, mutEx_lookup vs hvs f v, h, ↓reduceIte, Option.isSome_none,
      Bool.false_eq_true, List.zipIdx_append, List.map_append]
    congr 1
    · refine List.map_congr_left fun p hp => ?_
      have hp' := List.mem_zipIdx hp
      have hne : p.1 ≠ v := by
        rintro rfl
        apply h
        have := hp'.2.2; simp at this; rw [this]; simp
      simp [hne]
    · simp [List.idxOf_of_notMem h]

/-- One step of the loop, when multiple claims are allowed or the pair is new. -/
theorem step_buildOf (am : Bool) (t : S × V × X)
    (h : am = true ∨ ¬ ∃ u ∈ l, u.1 = t.1 ∧ u.2.1 = t.2.1) :
    Build.step am (buildOf l) t = .ok (buildOf (l ++ [t])) := by
  have hs := idmap_getId_firsts (l.map fun t => t.1) t.1
  have hv := idmap_getId_firsts (l.map fun t => t.2.1) t.2.1
  have hx := idmap_getId_firsts (l.map fun t => t.2.2) t.2.2
  have es : firsts ((l.map fun t => t.1) ++ [t.1]) = sources (l ++ [t]) := by simp [sources]
  have ev : firsts ((l.map fun t => t.2.1) ++ [t.2.1]) = vars (l ++ [t]) := by simp [vars]
  have ex : firsts ((l.map fun t => t.2.2) ++ [t.2.2]) = vals (l ++ [t]) := by simp [vals]
  rw [es] at hs; rw [ev] at hv; rw [ex] at hx
  have hs' : (buildOf l).sourceIds.getId t.1 = _ := hs
  have hv' : (buildOf l).varIds.getId t.2.1 = _ := hv
  have hx' : (buildOf l).valHashes.getId t.2.2 = _ := hx
  simp only [Build.step, hs', hv', hx', liftPy, bind, Except.bind, pure, Except.pure]
  by_cases hp : ∃ u ∈ l, u.1 = t.1 ∧ u.2.1 = t.2.1
  · have ham : am = true := h.resolve_right (fun hn => hn hp)
    have hp' := (pairs_mem l t).2 hp
    rw [if_pos hp', if_pos ham]
    obtain ⟨u, hu, h1, h2⟩ := hp
    have hp : ∃ u ∈ l, u.1 = t.1 ∧ u.2.1 = t.2.1 := ⟨u, hu, h1, h2⟩
    have hms : t.1 ∈ sources l := (mem_sources l).2 ⟨u, hu, h1⟩
    have hmv : t.2.1 ∈ vars l := (mem_vars l).2 ⟨u, hu, h2⟩
    have e1 := sources_append l t
    have e2 := vars_append l t
    have e3 := claims_append l t
    have e4 := recorded_append l t
    rw [if_pos hms] at e1; rw [if_pos hmv] at e2; rw [if_pos hp] at e3 e4
    simp only [buildOf, e1, e2, e3, e4, Except.ok.injEq, Build.mk.injEq, true_and, and_true]
    congr 1
    exact List.map_congr_left fun c hc => (claimKey_append l t hc).symm
  · have hp' := mt (pairs_mem l t).1 hp
    rw [if_neg hp']
    have e3 := claims_append l t
    have e4 := recorded_append l t
    rw [if_neg hp] at e3 e4
    have hck : (buildOf l).claimIds = ((claims l).map (claimKey (l ++ [t]))).zipIdx := by
      simp only [buildOf]
      congr 1
      exact List.map_congr_left fun c hc => (claimKey_append l t hc).symm
    have hkey : ((vars (l ++ [t])).idxOf t.2.1, (vals (l ++ [t])).idxOf t.2.2) =
        claimKey (l ++ [t]) t.2 := rfl
    have hmemk : claimKey (l ++ [t]) t.2 ∈ (claims l).map (claimKey (l ++ [t])) ↔
        t.2 ∈ claims l := by
      constructor
      · intro hm
        obtain ⟨c, hc, e⟩ := List.mem_map.1 hm
        have hc' : c ∈ claims (l ++ [t]) := by
          rw [e3]; split
          · exact hc
          · simp [hc]
        rw [← claimKey_inj _ hc' e]; exact hc
      · exact fun hm => List.mem_map_of_mem hm
    have hcl : (if claimKey (l ++ [t]) t.2 ∈ (claims l).map (claimKey (l ++ [t])) then
        (claims l).map (claimKey (l ++ [t])) else
        (claims l).map (claimKey (l ++ [t])) ++ [claimKey (l ++ [t]) t.2]) =
        (claims (l ++ [t])).map (claimKey (l ++ [t])) := by
      rw [e3]
      by_cases hc : t.2 ∈ claims l
      · rw [if_pos (hmemk.2 hc), if_pos hc]
      · rw [if_neg (mt hmemk.1 hc), if_neg hc]; simp
    have hidx : (if claimKey (l ++ [t]) t.2 ∈ (claims l).map (claimKey (l ++ [t])) then
        ((claims l).map (claimKey (l ++ [t]))).idxOf (claimKey (l ++ [t]) t.2) else
        ((claims l).map (claimKey (l ++ [t]))).length) =
        (claims (l ++ [t])).idxOf t.2 := by
      have hmem : t.2 ∈ claims (l ++ [t]) := by
        rw [e3]; split
        · assumption
        · simp
      have hk := nodup_claimKeys (l ++ [t])
      have hlt := List.idxOf_lt_length_iff.2 hmem
      have hkk : ((claims (l ++ [t])).map (claimKey (l ++ [t]))).idxOf (claimKey (l ++ [t]) t.2) =
          (claims (l ++ [t])).idxOf t.2 := by
        have := hk.idxOf_getElem ((claims (l ++ [t])).idxOf t.2) (by simpa using hlt)
        simpa using this
      rw [← hkk, ← hcl]
      by_cases hc : t.2 ∈ claims l
      · rw [if_pos (hmemk.2 hc), if_pos (hmemk.2 hc)]
      · rw [if_neg (mt hmemk.1 hc), if_neg (mt hmemk.1 hc)]
        rw [List.idxOf_append]; rw [if_neg (mt hmemk.1 hc)]; simp
    have hrs : ∀ u ∈ recorded l, u.1 ∈ sources l := fun u hu =>
      (mem_sources l).2 ⟨u, recorded_sub l hu, rfl⟩
    have hrv : ∀ u ∈ recorded l, u.2.1 ∈ vars l := fun u hu =>
      (mem_vars l).2 ⟨u, recorded_sub l hu, rfl⟩
    have hrc : ∀ u ∈ recorded l, u.2 ∈ claims l := fun u hu => (mem_claims l).2 ⟨u, hu, rfl⟩
    have hcidx : ∀ c ∈ claims l, (claims (l ++ [t])).idxOf c = (claims l).idxOf c := by
      intro c hc
      rw [e3]; split
      · rfl
      · exact idxOf_append_of_mem' hc
    have hvidx : (vars (l ++ [t])).idxOf t.2.1 = (vars l).idxOf t.2.1 := by
      rw [vars_append]; split
      · rfl
      · rename_i hn; rw [List.idxOf_append, if_neg hn]; simp [List.idxOf_of_notMem hn]
    simp only [hkey, hck, idmap_getId, hcl, hidx]
    have hme : (buildOf l).mutEx = (vars l).zipIdx.map fun p => (p.2, idsAbout (claims l) p.1) := rfl
    have hcur : (if (buildOf l).mutEx.has ((vars (l ++ [t])).idxOf t.2.1) = true then
        ((buildOf l).mutEx.get? ((vars (l ++ [t])).idxOf t.2.1)).getD [] else []) =
        idsAbout (claims l) t.2.1 := by
      have := mutEx_lookup (vars l) (nodup_vars l) (idsAbout (claims l)) t.2.1
      rw [hvidx, Dict.has, hme, this]
      by_cases hv : t.2.1 ∈ vars l
      · simp [hv]
      · simp only [hv, ↓reduceIte, Option.isSome_none, Bool.false_eq_true]
        symm
        rw [List.eq_nil_iff_forall_not_mem]
        intro i hi
        obtain ⟨hlt, e⟩ := mem_idsAbout.1 hi
        exact hv (e ▸ claim_var_mem l (List.getElem_mem hlt))
    have hadd : setAdd (idsAbout (claims l) t.2.1) ((claims (l ++ [t])).idxOf t.2) =
        idsAbout (claims (l ++ [t])) t.2.1 := by
      rw [setAdd, e3]
      by_cases hc : t.2 ∈ claims l
      · rw [if_pos hc, if_pos]
        rw [mem_idsAbout]
        exact ⟨List.idxOf_lt_length_iff.2 hc, by simp⟩
      · rw [if_neg hc, if_neg]
        · rw [idsAbout_append, if_pos rfl, List.idxOf_append, if_neg hc]; simp
        · intro hm
          have := idsAbout_lt hm
          rw [List.idxOf_append, if_neg hc] at this; omega
    rw [hcur, hadd, hvidx, hme, mutEx_set _ (nodup_vars l)]
    simp only [buildOf, e4, Except.ok.injEq, Build.mk.injEq, true_and, List.map_append,
      List.map_cons, List.map_nil]
    refine ⟨?_, ?_, ?_⟩
    · rw [hvidx]
      congr 1
      exact List.map_congr_left fun u hu => by
        rw [sources_idx_append l t (hrs u hu), vars_idx_append l t (hrv u hu)]
    · congr 1
      exact List.map_congr_left fun u hu => by
        rw [sources_idx_append l t (hrs u hu), hcidx _ (hrc u hu)]
    · rw [← vars_append]
      refine List.map_congr_left fun p _ => ?_
      by_cases hv : p.1 = t.2.1
      · simp [hv]
      · simp only [hv, ↓reduceIte, Prod.mk.injEq, true_and, e3]
        split
        · rfl
        · rw [idsAbout_append, if_neg (fun e => hv e.symm)]

/-- The duplicate branch raises, naming source and variable. -/
theorem step_dup (t : S × V × X) (h : ∃ u ∈ l, u.1 = t.1 ∧ u.2.1 = t.2.1) :
    Build.step false (buildOf l) t = .error (.multiple t.1 t.2.1) := by
  have hs := idmap_getId_firsts (l.map fun t => t.1) t.1
  have hv := idmap_getId_firsts (l.map fun t => t.2.1) t.2.1
  have hx := idmap_getId_firsts (l.map fun t => t.2.2) t.2.2
  have es : firsts ((l.map fun t => t.1) ++ [t.1]) = sources (l ++ [t]) := by simp [sources]
  have ev : firsts ((l.map fun t => t.2.1) ++ [t.2.1]) = vars (l ++ [t]) := by simp [vars]
  have ex : firsts ((l.map fun t => t.2.2) ++ [t.2.2]) = vals (l ++ [t]) := by simp [vals]
  rw [es] at hs; rw [ev] at hv; rw [ex] at hx
  have hs' : (buildOf l).sourceIds.getId t.1 = _ := hs
  have hv' : (buildOf l).varIds.getId t.2.1 = _ := hv
  have hx' : (buildOf l).valHashes.getId t.2.2 = _ := hx
  have hms : t.1 ∈ sources (l ++ [t]) := (mem_sources _).2 ⟨t, by simp, rfl⟩
  have hmv : t.2.1 ∈ vars (l ++ [t]) := (mem_vars _).2 ⟨t, by simp, rfl⟩
  simp only [Build.step, hs', hv', hx', liftPy, bind, Except.bind, pure, Except.pure]
  rw [if_pos ((pairs_mem l t).2 h)]
  simp [idmap_inv, List.idxOf_lt_length_iff.2 hms, List.idxOf_lt_length_iff.2 hmv, throw,
    throwThe, MonadExceptOf.throw]

end facts

theorem run_append (am : Bool) (l m : List (S × V × X)) (b : Build S V X)
    (h : Build.run am l = .ok b) : Build.run am (l ++ m) = m.foldlM (Build.step am) b := by
  unfold Build.run at *
  rw [List.foldlM_append, h]; rfl

/-- With `allow_multiple=True` the loop never fails. -/
theorem run_true (l : List (S × V × X)) : Build.run true l = .ok (buildOf l) := by
  induction l using List.reverseRecOn with
  | nil => rfl
  | append_singleton l t ih =>
    rw [run_append _ _ _ _ ih, List.foldlM_cons, step_buildOf l true t (Or.inl rfl)]; rfl

theorem noRepeats_append (l : List (S × V × X)) (t : S × V × X) :
    NoRepeats (l ++ [t]) ↔ NoRepeats l ∧ ¬ ∃ u ∈ l, u.1 = t.1 ∧ u.2.1 = t.2.1 := by
  simp only [NoRepeats, List.map_append, List.map_cons, List.map_nil, List.nodup_append]
  constructor
  · rintro ⟨h1, _, h3⟩
    refine ⟨h1, ?_⟩
    rintro ⟨u, hu, e1, e2⟩
    exact h3 (u.1, u.2.1) (List.mem_map.2 ⟨u, hu, rfl⟩) (t.1, t.2.1) (by simp) (by simp [e1, e2])
  · rintro ⟨h1, h2⟩
    refine ⟨h1, by simp, ?_⟩
    intro a ha b hb e
    obtain ⟨u, hu, rfl⟩ := List.mem_map.1 ha
    simp at hb; subst hb
    simp at e
    exact h2 ⟨u, hu, e⟩

/-- Without repeats both modes agree. -/
theorem run_false (l : List (S × V × X)) (h : NoRepeats l) :
    Build.run false l = .ok (buildOf l) := by
  induction l using List.reverseRecOn with
  | nil => rfl
  | append_singleton l t ih =>
    obtain ⟨h1, h2⟩ := (noRepeats_append l t).1 h
    rw [run_append _ _ _ _ (ih h1), List.foldlM_cons, step_buildOf l false t (Or.inr h2)]; rfl

/-- The first repeated (source, variable) pair is reported. -/
theorem run_dup (pre post : List (S × V × X)) (t : S × V × X) (h : NoRepeats pre)
    (hd : ∃ u ∈ pre, u.1 = t.1 ∧ u.2.1 = t.2.1) :
    Build.run false (pre ++ t :: post) = .error (.multiple t.1 t.2.1) := by
  rw [run_append _ _ _ _ (run_false pre h), List.foldlM_cons, step_dup pre t hd]; rfl

theorem exists_first_dup (l : List (S × V × X)) (h : ¬ NoRepeats l) :
    ∃ pre t post, l = pre ++ t :: post ∧ NoRepeats pre ∧ ∃ u ∈ pre, u.1 = t.1 ∧ u.2.1 = t.2.1 := by
  induction l using List.reverseRecOn with
  | nil => simp [NoRepeats] at h
  | append_singleton l t ih =>
    by_cases h1 : NoRepeats l
    · have : ∃ u ∈ l, u.1 = t.1 ∧ u.2.1 = t.2.1 := by
        by_contra hn; exact h ((noRepeats_append l t).2 ⟨h1, hn⟩)
      exact ⟨l, t, [], rfl, h1, this⟩
    · obtain ⟨pre, u, post, rfl, hp, hd⟩ := ih h1
      exact ⟨pre, u, post ++ [t], by simp, hp, hd⟩

theorem recorded_eq_self {l : List (S × V × X)} (h : NoRepeats l) : recorded l = l :=
  firstsBy_eq_self h

/-- A successful build is the closed form. -/
theorem run_ok_iff (am : Bool) (l : List (S × V × X)) (b : Build S V X) :
    Build.run am l = .ok b ↔ b = buildOf l ∧ (am = true ∨ NoRepeats l) := by
  cases am with
  | true => rw [run_true]; simp [eq_comm]
  | false =>
    by_cases h : NoRepeats l
    · rw [run_false l h]; simp [h, eq_comm]
    · obtain ⟨pre, t, post, rfl, hp, hd⟩ := exists_first_dup l h
      rw [run_dup pre post t hp hd]; simp [h]

end TD
