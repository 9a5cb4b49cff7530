import Verif.Lemmas.Results
/-!
# C45: filtered results and shared dictionaries
-/

namespace TD

variable {S V X α : Type} [DecidableEq S] [DecidableEq V] [DecidableEq X]

/-- Addresses of the dictionaries a result refers to. -/
def Heap.Reach (h : Heap S V X α) (r : RObj) (a : Nat) : Prop :=
  a = r.trust ∨ a = r.belief ∨ ∃ v, (v, a) ∈ h.outerAt r.belief

/-- All dictionaries the result refers to exist. -/
def Heap.Valid (h : Heap S V X α) (r : RObj) : Prop := ∀ a, h.Reach r a → a < h.length

theorem Heap.view_congr {h h' : Heap S V X α} {r : RObj}
    (e : ∀ a, h.Reach r a → h'[a]? = h[a]?) :
    h'.view r = h.view r ∧ ∀ a, h'.Reach r a ↔ h.Reach r a := by
  have e1 : h'.trustAt r.trust = h.trustAt r.trust := by
    simp only [trustAt, e _ (Or.inl rfl)]
  have e2 : h'.outerAt r.belief = h.outerAt r.belief := by
    simp only [outerAt, e _ (Or.inr (Or.inl rfl))]
  refine ⟨?_, fun a => by simp only [Reach, e2]⟩
  simp only [view, e1, e2]
  congr 1
  refine List.map_congr_left fun p hp => ?_
  simp only [innerAt, e _ (Or.inr (Or.inr ⟨p.1, hp⟩))]

/-- The dictionaries of `r` and `r'` exist and none is shared. -/
def Heap.Sep (h : Heap S V X α) (r r' : RObj) : Prop :=
  h.Valid r ∧ h.Valid r' ∧ ∀ a, h.Reach r a → ¬ h.Reach r' a

theorem dict_set_mem {κ ν : Type} [DecidableEq κ] {d : Dict κ ν} {k : κ} {x : ν} {p : κ × ν}
    (hp : p ∈ d.set k x) : p ∈ d ∨ p = (k, x) := by
  unfold Dict.set at hp
  split at hp
  · obtain ⟨q, hq, rfl⟩ := List.mem_map.1 hp
    split
    · rename_i h; right; rw [h]
    · left; exact hq
  · rcases List.mem_append.1 hp with h | h
    · exact Or.inl h
    · exact Or.inr (by simpa using h)

theorem Heap.outerAt_set {h : Heap S V X α} {a : Nat} {o : Obj S V X α} {b : Nat} {p : V × Nat}
    (ho : ∀ d, o ≠ .outer d) (hp : p ∈ Heap.outerAt (h.set a o) b) : p ∈ h.outerAt b := by
  unfold outerAt at hp ⊢
  by_cases hab : a = b
  · subst hab
    by_cases hl : a < h.length
    · rw [List.getElem?_set_self hl] at hp
      cases o with
      | outer d => exact absurd rfl (ho d)
      | _ => simp at hp
    · rw [List.getElem?_eq_none (by simp; omega)] at hp
      simp at hp
  · rw [List.getElem?_set_ne hab] at hp
    exact hp

/-- A mutation of `r'` touches only dictionaries of `r'` and new ones. -/
theorem Heap.mutate_other {h : Heap S V X α} {r r' : RObj} (hs : h.Sep r r')
    (m : Mutation S V X α) :
    (h.mutate r' m).view r = h.view r ∧ (h.mutate r' m).Sep r r' := by
  have hlen : h.length ≤ (h.mutate r' m).length := by
    cases m with
    | inner v f => simp only [mutate]; split <;> simp
    | _ => simp [mutate]
  have e : ∀ a, h.Reach r a → (h.mutate r' m)[a]? = h[a]? := by
    intro a ha
    have hn := hs.2.2 a ha
    have hl := hs.1 a ha
    cases m with
    | trust f =>
      simp only [mutate]
      rw [List.getElem?_set_ne]
      rintro rfl; exact hn (Or.inl rfl)
    | inner v f =>
      simp only [mutate]
      split
      · rename_i b hb
        rw [List.getElem?_set_ne]
        rintro rfl
        exact hn (Or.inr (Or.inr ⟨v, mem_of_lookup_some hb⟩))
      · rfl
    | assign v d =>
      simp only [mutate]
      rw [List.getElem?_set_ne, List.getElem?_append_left hl]
      rintro rfl; exact hn (Or.inr (Or.inl rfl))
    | del v =>
      simp only [mutate]
      rw [List.getElem?_set_ne]
      rintro rfl; exact hn (Or.inr (Or.inl rfl))
  have hr' : ∀ a, (h.mutate r' m).Reach r' a → h.Reach r' a ∨
      (a = h.length ∧ a < (h.mutate r' m).length) := by
    rintro a (rfl | rfl | ⟨v, hv⟩)
    · exact Or.inl (Or.inl rfl)
    · exact Or.inl (Or.inr (Or.inl rfl))
    · cases m with
      | trust f =>
        exact Or.inl (Or.inr (Or.inr ⟨v, outerAt_set (by simp) hv⟩))
      | inner w f =>
        left
        simp only [mutate] at hv
        split at hv
        · exact Or.inr (Or.inr ⟨v, outerAt_set (by simp) hv⟩)
        · exact Or.inr (Or.inr ⟨v, hv⟩)
      | assign w d =>
        have hb : r'.belief < h.length := hs.2.1 _ (Or.inr (Or.inl rfl))
        simp only [mutate, outerAt] at hv
        rw [List.getElem?_set_self (by simp; omega)] at hv
        rcases dict_set_mem hv with hv | hv
        · exact Or.inl (Or.inr (Or.inr ⟨v, hv⟩))
        · right
          simp only [Prod.mk.injEq] at hv
          refine ⟨hv.2, ?_⟩
          rw [hv.2]
          simp [mutate]
      | del w =>
        have hb : r'.belief < h.length := hs.2.1 _ (Or.inr (Or.inl rfl))
        simp only [mutate, outerAt] at hv
        rw [List.getElem?_set_self hb] at hv
        exact Or.inl (Or.inr (Or.inr ⟨v, (List.mem_filter.1 hv).1⟩))
  obtain ⟨c1, c2⟩ := Heap.view_congr e
  refine ⟨c1, ?_, ?_, ?_⟩
  · intro a ha
    exact lt_of_lt_of_le (hs.1 a ((c2 a).1 ha)) hlen
  · intro a ha
    rcases hr' a ha with h' | h'
    · exact lt_of_lt_of_le (hs.2.1 a h') hlen
    · exact h'.2
  · intro a ha hb
    have ha := (c2 a).1 ha
    rcases hr' a hb with h' | h'
    · exact hs.2.2 a ha h'
    · exact absurd (hs.1 a ha) (by omega)

theorem Heap.mutate_others {h : Heap S V X α} {r r' : RObj} (hs : h.Sep r r')
    (ms : List (Mutation S V X α)) :
    (ms.foldl (fun h m => h.mutate r' m) h).view r = h.view r := by
  induction ms generalizing h with
  | nil => rfl
  | cons m ms ih =>
    obtain ⟨e, hs'⟩ := Heap.mutate_other hs m
    rw [List.foldl_cons, ih hs', e]

theorem Heap.view_append {h : Heap S V X α} {r : RObj} (hv : h.Valid r)
    (t : List (Obj S V X α)) :
    Heap.view (h ++ t) r = h.view r ∧ ∀ a, Heap.Reach (h ++ t) r a ↔ h.Reach r a :=
  Heap.view_congr fun a ha => List.getElem?_append_left (hv a ha)

theorem Heap.outerAt_append {h t : Heap S V X α} {a : Nat} (ha : a < h.length) :
    Heap.outerAt (h ++ t) a = h.outerAt a := by
  simp only [outerAt, List.getElem?_append_left ha]

theorem Heap.innerAt_append {h t : Heap S V X α} {a : Nat} (ha : a < h.length) :
    Heap.innerAt (h ++ t) a = h.innerAt a := by
  simp only [innerAt, List.getElem?_append_left ha]

theorem mem_enum_lt {β : Type} {d : List β} {p : Nat × β} (h : p ∈ enum d) :
    p.1 < d.length ∧ d[p.1]? = some p.2 := by
  simp only [enum, List.mem_map] at h
  obtain ⟨q, hq, rfl⟩ := h
  have := List.mem_zipIdx_iff_getElem?.1 hq
  exact ⟨(List.getElem?_eq_some_iff.1 this).1, this⟩

theorem Heap.filter_none_sep {h : Heap S V X α} {r : RObj} (hv : h.Valid r)
    (ss : Option (List S)) :
    (h.filter r ss none).1.Sep r (h.filter r ss none).2 ∧
    (h.filter r ss none).1.view r = h.view r := by
  obtain ⟨t, ht⟩ : ∃ t : Dict S α, h.filter r ss none =
      (((h ++ [.trust t] : Heap S V X α).copyBelief r.belief).1,
        ⟨h.length, ((h ++ [.trust t] : Heap S V X α).copyBelief r.belief).2⟩) := ⟨_, rfl⟩
  rw [ht]
  have hb : r.belief < h.length := hv _ (Or.inr (Or.inl rfl))
  simp only [copyBelief]
  rw [outerAt_append hb]
  set d := h.outerAt r.belief
  simp only [List.append_assoc]
  obtain ⟨v1, v2⟩ := Heap.view_append hv ([Obj.trust t] ++ (List.map
    (fun p => Obj.inner (Heap.innerAt (h ++ [Obj.trust t]) p.2)) d ++
    [Obj.outer ((enum d).map fun p => (p.2.1, (h ++ [Obj.trust t]).length + p.1))]))
  refine ⟨⟨?_, ?_, ?_⟩, v1⟩
  · intro a ha
    have := hv a ((v2 a).1 ha)
    rw [List.length_append]
    omega
  all_goals
    have hreach : ∀ a, Heap.Reach (h ++ ([Obj.trust t] ++ (List.map
        (fun p : V × Nat => Obj.inner (Heap.innerAt (h ++ [Obj.trust t]) p.2)) d ++
        [Obj.outer ((enum d).map fun p : Nat × V × Nat => (p.2.1, (h ++ [Obj.trust t]).length + p.1))])))
        ⟨h.length, (h ++ ([Obj.trust t] ++ List.map
          (fun p : V × Nat => Obj.inner (Heap.innerAt (h ++ [Obj.trust t]) p.2)) d)).length⟩ a →
        h.length ≤ a ∧ a < h.length + 1 + d.length + 1 := by
      rintro a (rfl | rfl | ⟨v, ha⟩)
      · simp only; omega
      · simp only [List.length_append, List.length_cons, List.length_nil, List.length_map]; omega
      · simp only [outerAt] at ha
        rw [← List.append_assoc, ← List.append_assoc, List.append_assoc h,
          List.getElem?_append_right (le_refl _), Nat.sub_self] at ha
        simp only [List.getElem?_cons_zero, List.mem_map] at ha
        obtain ⟨p, hp, ha⟩ := ha
        have := (mem_enum_lt hp).1
        simp only [Prod.mk.injEq, List.length_append, List.length_cons, List.length_nil] at ha
        omega
  · intro a ha
    have := (hreach a ha).2
    simp only [List.length_append, List.length_cons, List.length_nil, List.length_map]
    omega
  · intro a ha hb'
    have h1 := hv a ((v2 a).1 ha)
    have h2 := (hreach a hb').1
    omega

/-- **C45.** A filtered result (no variable filter) is a copy: whatever is done to
its dictionaries, the original reads as before — and the other way round. -/
theorem C45_copy (h : Heap S V X α) (r : RObj) (hv : h.Valid r) (ss : Option (List S))
    (ms : List (Mutation S V X α)) :
    let f := h.filter r ss none
    (ms.foldl (fun h m => h.mutate f.2 m) f.1).view r = h.view r ∧
    (ms.foldl (fun h m => h.mutate r m) f.1).view f.2 = f.1.view f.2 := by
  intro f
  obtain ⟨hs, hview⟩ := Heap.filter_none_sep hv ss
  constructor
  · rw [Heap.mutate_others hs ms, hview]
  · exact Heap.mutate_others ⟨hs.2.1, hs.1, fun a h1 h2 => hs.2.2 a h2 h1⟩ ms

theorem get_map_values {κ ν μ : Type} [DecidableEq κ] (d : Dict κ ν) (F : ν → μ) (k : κ) :
    Dict.get? (d.map fun p => (p.1, F p.2)) k = (d.get? k).map F := by
  unfold Dict.get?
  induction d with
  | nil => rfl
  | cons p d ih =>
    obtain ⟨k', b⟩ := p
    simp only [List.map_cons, List.lookup_cons]
    cases (k == k')
    · exact ih
    · rfl

theorem zipIdx_map_fst {β γ : Type} (d : List β) (F : Nat → β → γ) :
    (enum d).map (fun p => F p.1 p.2) = d.mapIdx F := by
  rw [List.mapIdx_eq_zipIdx_map]
  simp [enum, Function.comp_def]

/-- **C45.** Reading a filtered result gives the filtered scores (also with a
variable filter), so the object level agrees with `Result.filter`. -/
theorem C45_view [Arith α] (h : Heap S V X α) (r : RObj) (hv : h.Valid r) (ss : Option (List S))
    (vs : Option (List V)) (time : α) (iterations : Option Nat) :
    let f := h.filter r ss vs
    let orig : Result S V X α := ⟨(h.view r).1, (h.view r).2, time, iterations⟩
    f.1.view f.2 = ((orig.filter ss vs).trust, (orig.filter ss vs).belief) := by
  intro f orig
  have hb : r.belief < h.length := hv _ (Or.inr (Or.inl rfl))
  have ht : ∀ (t : Dict S α) (tl : Heap S V X α), Heap.trustAt (h ++ ([.trust t] ++ tl)) h.length = t := by
    intro t tl
    simp [Heap.trustAt]
  cases vs with
  | none =>
    obtain ⟨t, e, ht'⟩ : ∃ t : Dict S α, f =
      (((h ++ [.trust t] : Heap S V X α).copyBelief r.belief).1,
        ⟨h.length, ((h ++ [.trust t] : Heap S V X α).copyBelief r.belief).2⟩) ∧
        t = (orig.filter ss none).trust := ⟨_, rfl, by cases ss <;> rfl⟩
    rw [e]
    simp only [Heap.copyBelief]
    rw [Heap.outerAt_append hb]
    simp only [Heap.view]
    congr 1
    · simp only [List.append_assoc]
      rw [ht, ht']
    · show _ = (h.outerAt r.belief).map fun p => (p.1, h.innerAt p.2)
      have hd : ∀ p ∈ h.outerAt r.belief, p.2 < h.length := fun p hp => hv _ (Or.inr (Or.inr ⟨p.1, hp⟩))
      generalize h.outerAt r.belief = d at hd
      simp only [Heap.outerAt]
      rw [List.getElem?_append_right (le_refl _), Nat.sub_self]
      simp only [List.getElem?_cons_zero, List.map_map]
      refine (zipIdx_map_fst d (fun i p =>
        (p.1, Heap.innerAt (h ++ [Obj.trust t] ++ List.map
          (fun p => Obj.inner (Heap.innerAt (h ++ [Obj.trust t]) p.2)) d ++
          [Obj.outer ((enum d).map fun p => (p.2.1, List.length (h ++ [Obj.trust t]) + p.1))])
          (List.length (h ++ [Obj.trust t]) + i)))).trans ?_
      refine List.ext_getElem? fun i => ?_
      rw [List.getElem?_mapIdx, List.getElem?_map]
      cases hi : d[i]? with
      | none => rfl
      | some p =>
        have hil := (List.getElem?_eq_some_iff.1 hi).1
        simp only [Option.map_some, Option.some.injEq, Prod.mk.injEq, true_and]
        rw [Heap.innerAt_append (by simp; omega)]
        unfold Heap.innerAt
        rw [List.getElem?_append_right (by omega)]
        simp only [Nat.add_sub_cancel_left, List.getElem?_map, hi, Option.map_some]
        rw [List.getElem?_append_left (hd p (List.mem_of_getElem? hi))]
  | some ks =>
    obtain ⟨t, e, ht'⟩ : ∃ t : Dict S α, f =
      (((h ++ [.trust t]) ++ [.outer (filterDict (Heap.outerAt (h ++ [.trust t]) r.belief) ks)] : Heap S V X α),
        ⟨h.length, (h ++ [Obj.trust t] : Heap S V X α).length⟩) ∧
        t = (orig.filter ss (some ks)).trust := ⟨_, rfl, by cases ss <;> rfl⟩
    rw [e]
    rw [Heap.outerAt_append hb]
    simp only [Heap.view]
    congr 1
    · simp only [List.append_assoc]
      rw [ht, ht']
    · show _ = filterDict ((h.outerAt r.belief).map fun p => (p.1, h.innerAt p.2)) ks
      have hd : ∀ p ∈ h.outerAt r.belief, p.2 < h.length := fun p hp => hv _ (Or.inr (Or.inr ⟨p.1, hp⟩))
      generalize h.outerAt r.belief = d at hd
      simp only [Heap.outerAt]
      rw [List.getElem?_append_right (le_refl _), Nat.sub_self]
      simp only [List.getElem?_cons_zero]
      rw [filterDict_eq, filterDict_eq, List.map_filterMap]
      refine List.filterMap_congr ?_
      intro k _
      rw [get_map_values]
      cases hk : d.get? k with
      | none => rfl
      | some a =>
        simp only [Option.map_some, Option.some.injEq, Prod.mk.injEq, true_and]
        have : a < h.length := hd _ (mem_of_lookup_some hk)
        rw [List.append_assoc, Heap.innerAt_append this]

/-- Mutations that do not reach into an inner dictionary. -/
def Mutation.shallow : Mutation S V X α → Prop
  | .inner _ _ => False
  | _ => True

/-- **C45** (the part that holds with a variable filter).  Changes of the trust
dictionary of the filtered result, and assigning or removing whole variables, never
change the original.  Missing: changes of an inner dictionary, which the code
shares — see `C45_shared`. -/
theorem C45_variables_partial (h : Heap S V X α) (r : RObj) (hv : h.Valid r)
    (ss : Option (List S)) (ks : List V) (ms : List (Mutation S V X α))
    (hms : ∀ m ∈ ms, m.shallow) :
    let f := h.filter r ss (some ks)
    (ms.foldl (fun h m => h.mutate f.2 m) f.1).view r = h.view r := by
  obtain ⟨t, e⟩ : ∃ t : Dict S α, h.filter r ss (some ks) =
      (((h ++ [.trust t]) ++ [.outer (filterDict (Heap.outerAt (h ++ [.trust t]) r.belief) ks)] : Heap S V X α),
        ⟨h.length, (h ++ [Obj.trust t] : Heap S V X α).length⟩) := ⟨_, rfl⟩
  simp only [e]
  have key : ∀ (ms : List (Mutation S V X α)), (∀ m ∈ ms, m.shallow) → ∀ h' : Heap S V X α,
      (∀ a, a < h.length → h'[a]? = h[a]?) → ∀ a, a < h.length →
      (ms.foldl (fun h' m => Heap.mutate h' ⟨h.length, (h ++ [Obj.trust t] : Heap S V X α).length⟩ m) h')[a]? = h[a]? := by
    intro ms
    induction ms with
    | nil => intro _ h' he a ha; exact he a ha
    | cons m ms ih =>
      intro hm h' he a ha
      rw [List.foldl_cons]
      refine ih (fun m' hm' => hm m' (by simp [hm'])) _ ?_ a ha
      intro b hb
      have hb1 : b < h'.length := by
        have := he b hb
        rw [List.getElem?_eq_getElem hb] at this
        exact (List.getElem?_eq_some_iff.1 this).1
      have hs := hm m (by simp)
      cases m with
      | trust f =>
        simp only [Heap.mutate]
        rw [List.getElem?_set_ne (by omega), he b hb]
      | inner v f => exact hs.elim
      | assign v d =>
        simp only [Heap.mutate]
        rw [List.getElem?_set_ne (by simp; omega), List.getElem?_append_left hb1, he b hb]
      | del v =>
        simp only [Heap.mutate]
        rw [List.getElem?_set_ne (by simp; omega), he b hb]
  refine (Heap.view_congr fun a ha => key ms hms _ ?_ a (hv a ha)).1
  intro a ha
  rw [List.append_assoc, List.getElem?_append_left ha]

/-- **C45** is false with a variable filter: for *every* result and every requested
variable `v` it has, changing the inner dictionary of `v` through the filtered
result changes what the original reports for `v`. -/
theorem C45_shared (h : Heap S V X α) (r : RObj) (hv : h.Valid r)
    (ss : Option (List S)) (ks : List V) (v : V) (a : Nat) (hk : v ∈ ks)
    (ha : (h.outerAt r.belief).get? v = some a) (hab : a ≠ r.belief)
    (g : Dict X α → Dict X α) :
    let f := h.filter r ss (some ks)
    ((f.1.mutate f.2 (.inner v g)).view r).2.get? v = some (g (h.innerAt a)) := by
  obtain ⟨t, e⟩ : ∃ t : Dict S α, h.filter r ss (some ks) =
      (((h ++ [.trust t]) ++ [.outer (filterDict (Heap.outerAt (h ++ [.trust t]) r.belief) ks)] : Heap S V X α),
        ⟨h.length, (h ++ [Obj.trust t] : Heap S V X α).length⟩) := ⟨_, rfl⟩
  simp only [e]
  have hb : r.belief < h.length := hv _ (Or.inr (Or.inl rfl))
  have hal : a < h.length := hv _ (Or.inr (Or.inr ⟨v, mem_of_lookup_some ha⟩))
  rw [Heap.outerAt_append hb]
  have h1 : Heap.outerAt ((h ++ [Obj.trust t]) ++ [Obj.outer (filterDict (h.outerAt r.belief) ks)])
      (h ++ [Obj.trust t] : Heap S V X α).length = filterDict (h.outerAt r.belief) ks := by
    simp only [Heap.outerAt]
    rw [List.getElem?_append_right (le_refl _), Nat.sub_self]
    rfl
  simp only [Heap.mutate, h1, get_filterDict, hk, ↓reduceIte, ha]
  rw [List.append_assoc, Heap.innerAt_append hal]
  simp only [Heap.view]
  have h2 : Heap.outerAt ((h ++ ([Obj.trust t] ++ [Obj.outer (filterDict (h.outerAt r.belief) ks)])).set a
      (Obj.inner (g (h.innerAt a)))) r.belief = h.outerAt r.belief := by
    simp only [Heap.outerAt]
    rw [List.getElem?_set_ne hab, List.getElem?_append_left hb]
  rw [h2]
  have h3 : Heap.innerAt ((h ++ ([Obj.trust t] ++ [Obj.outer (filterDict (h.outerAt r.belief) ks)])).set a
      (Obj.inner (g (h.innerAt a)))) a = g (h.innerAt a) := by
    simp only [Heap.innerAt]
    rw [List.getElem?_set_self (by simp; omega)]
  rw [get_map_values, ha, Option.map_some, h3]

/-- The result does not use one dictionary in two places. -/
structure Heap.Own (h : Heap S V X α) (r : RObj) : Prop where
  valid : h.Valid r
  two : r.trust ≠ r.belief
  inner : ∀ p ∈ h.outerAt r.belief, p.2 ≠ r.trust ∧ p.2 ≠ r.belief
  apart : ∀ p ∈ h.outerAt r.belief, ∀ q ∈ h.outerAt r.belief, p.2 = q.2 → p.1 = q.1

theorem get_filter_ne {κ ν : Type} [DecidableEq κ] (d : Dict κ ν) (v w : κ) :
    Dict.get? (d.filter fun p => !decide (p.1 = v)) w = if w = v then none else d.get? w := by
  unfold Dict.get?
  induction d with
  | nil => simp
  | cons p d ih =>
    obtain ⟨k, b⟩ := p
    rw [List.filter_cons]
    by_cases hk : k = v
    · subst hk
      simp only [decide_true, Bool.not_true, Bool.false_eq_true, ↓reduceIte, ih, List.lookup_cons]
      by_cases hw : w = k
      · simp [hw]
      · have : (w == k) = false := by simpa using hw
        simp [hw, this]
    · simp only [hk, decide_false, Bool.not_false, ↓reduceIte, List.lookup_cons, ih]
      by_cases hw : w = k
      · subst hw
        simp [hk]
      · have : (w == k) = false := by simpa using hw
        simp [this]

/-- **C45.** What is done to the dictionaries of a result shows in this result: the trust
dictionary becomes what it is changed to; an inner dictionary changes for its variable only;
an assigned variable has the new dictionary; a removed variable is gone. -/
theorem C45_own (h : Heap S V X α) (r : RObj) (ho : h.Own r) :
    (∀ g, (h.mutate r (.trust g)).view r = (g (h.view r).1, (h.view r).2)) ∧
    (∀ v g, ((h.mutate r (.inner v g)).view r).1 = (h.view r).1 ∧ ∀ w,
      ((h.mutate r (.inner v g)).view r).2.get? w =
        if w = v then ((h.view r).2.get? v).map g else (h.view r).2.get? w) ∧
    (∀ v e, ((h.mutate r (.assign v e)).view r).1 = (h.view r).1 ∧ ∀ w,
      ((h.mutate r (.assign v e)).view r).2.get? w = if w = v then some e else (h.view r).2.get? w) ∧
    (∀ v, ((h.mutate r (.del v)).view r).1 = (h.view r).1 ∧ ∀ w,
      ((h.mutate r (.del v)).view r).2.get? w = if w = v then none else (h.view r).2.get? w) := by
  have ht : r.trust < h.length := ho.valid _ (Or.inl rfl)
  have hb : r.belief < h.length := ho.valid _ (Or.inr (Or.inl rfl))
  have hin : ∀ p ∈ h.outerAt r.belief, p.2 < h.length := fun p hp => ho.valid _ (Or.inr (Or.inr ⟨p.1, hp⟩))
  refine ⟨fun g => ?_, fun v g => ?_, fun v e => ?_, fun v => ?_⟩
  · simp only [Heap.mutate, Heap.view]
    congr 1
    · simp only [Heap.trustAt, List.getElem?_set_self ht]
    · have e1 : Heap.outerAt (h.set r.trust (.trust (g (h.trustAt r.trust)))) r.belief = h.outerAt r.belief := by
        simp only [Heap.outerAt, List.getElem?_set_ne ho.two]
      rw [e1]
      refine List.map_congr_left fun p hp => ?_
      simp only [Heap.innerAt, List.getElem?_set_ne (ho.inner p hp).1.symm]
  · simp only [Heap.mutate]
    cases hv : (h.outerAt r.belief).get? v with
    | none =>
      refine ⟨rfl, fun w => ?_⟩
      simp only [Heap.view, get_map_values]
      split
      · rename_i hw; rw [hw, hv]; rfl
      · rfl
    | some a =>
      have hm := mem_of_lookup_some hv
      obtain ⟨n1, n2⟩ := ho.inner _ hm
      have e1 : Heap.outerAt (h.set a (.inner (g (h.innerAt a)))) r.belief = h.outerAt r.belief := by
        simp only [Heap.outerAt, List.getElem?_set_ne n2]
      refine ⟨by simp only [Heap.view, Heap.trustAt, List.getElem?_set_ne n1], fun w => ?_⟩
      simp only [Heap.view, get_map_values, e1]
      split
      · rename_i hw
        rw [hw, hv]
        simp only [Option.map_some, Heap.innerAt, List.getElem?_set_self (hin _ hm)]
      · rename_i hw
        cases hc : (h.outerAt r.belief).get? w with
        | none => rfl
        | some b =>
          have hne : a ≠ b := fun hab => hw (ho.apart _ (mem_of_lookup_some hc) _ hm hab.symm)
          simp only [Option.map_some, Heap.innerAt, List.getElem?_set_ne hne]
  · simp only [Heap.mutate]
    have hb' : r.belief < (h ++ [Obj.inner e]).length := by simp; omega
    refine ⟨?_, fun w => ?_⟩
    · simp only [Heap.view, Heap.trustAt, List.getElem?_set_ne ho.two.symm, List.getElem?_append_left ht]
    · have e1 : Heap.outerAt ((h ++ [Obj.inner e]).set r.belief (.outer ((h.outerAt r.belief).set v h.length))) r.belief =
          (h.outerAt r.belief).set v h.length := by
        simp only [Heap.outerAt, List.getElem?_set_self hb']
      simp only [Heap.view, get_map_values, e1, get?_set]
      split
      · rename_i hw
        simp only [hw, ↓reduceIte, Option.map_some, Heap.innerAt, List.getElem?_set_ne (show r.belief ≠ h.length by omega)]
        simp
      · rename_i hw
        cases hc : (h.outerAt r.belief).get? w with
        | none => rfl
        | some b =>
          have hm := mem_of_lookup_some hc
          have hbl := hin _ hm
          simp only [Option.map_some, Heap.innerAt, List.getElem?_set_ne (ho.inner _ hm).2.symm, List.getElem?_append_left hbl]
  · simp only [Heap.mutate]
    refine ⟨by simp only [Heap.view, Heap.trustAt, List.getElem?_set_ne ho.two.symm], fun w => ?_⟩
    have e1 : Heap.outerAt (h.set r.belief (.outer ((h.outerAt r.belief).filter fun p => !decide (p.1 = v)))) r.belief =
        (h.outerAt r.belief).filter fun p => !decide (p.1 = v) := by
      simp only [Heap.outerAt, List.getElem?_set_self hb]
    simp only [Heap.view, get_map_values, e1, get_filter_ne]
    split
    · rfl
    · cases hc : (h.outerAt r.belief).get? w with
      | none => rfl
      | some b =>
        simp only [Option.map_some, Heap.innerAt, List.getElem?_set_ne (ho.inner _ (mem_of_lookup_some hc)).2.symm]

/-- The dictionaries of the example below. -/
example : Heap.Own ([.trust [(1, 5)], .inner [(0, 3), (1, 4)], .outer [(7, 1)]] : Heap Nat Nat Nat Nat) ⟨0, 2⟩ where
  valid := by
    rintro a (rfl | rfl | ⟨v, h⟩)
    · decide
    · decide
    · simp [Heap.outerAt] at h
      simp [h.2]
  two := by decide
  inner := by decide
  apart := by decide

/-- Non-vacuity, and a concrete case of the sharing: filtering to variable 7 and
then clearing its dictionary clears it in the original. -/
example :
    let h : Heap Nat Nat Nat Nat := [.trust [(1, 5)], .inner [(0, 3), (1, 4)], .outer [(7, 1)]]
    let r : RObj := ⟨0, 2⟩
    let f := h.filter r none (some [7])
    (h.view r).2 = [(7, [(0, 3), (1, 4)])] ∧
    ((f.1.mutate f.2 (.inner 7 fun _ => [])).view r).2 = [(7, [])] ∧
    (let f := h.filter r none none; ((f.1.mutate f.2 (.inner 7 fun _ => [])).view r).2 = [(7, [(0, 3), (1, 4)])]) := by
  decide

example : Heap.Valid ([.trust [(1, 5)], .inner [(0, 3), (1, 4)], .outer [(7, 1)]] : Heap Nat Nat Nat Nat) ⟨0, 2⟩ := by
  rintro a (rfl | rfl | ⟨v, h⟩)
  · decide
  · decide
  · simp [Heap.outerAt] at h
    simp [h.2]

end TD
