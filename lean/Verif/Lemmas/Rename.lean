import Verif.Spec.Rename
import Verif.Lemmas.Rel
import Verif.Lemmas.Loop

namespace TD
open Spec
attribute [-instance] instBEqProd

section
variable {A B K L : Type} [DecidableEq K] [DecidableEq L]

theorem firstsBy_map (key : A → K) (key' : B → L) (g : A → B)
    (h : ∀ x y, key' (g x) = key' (g y) ↔ key x = key y) (l : List A) :
    firstsBy key' (l.map g) = (firstsBy key l).map g := by
  induction l with
  | nil => rfl
  | cons a l ih =>
    simp only [List.map_cons, firstsBy, ih, List.filter_map]
    congr 2
    apply List.filter_congr
    intro x _
    simp [h]

theorem firsts_map (g : K → L) (h : ∀ x y, g x = g y → x = y) (l : List K) :
    firsts (l.map g) = (firsts l).map g := by
  unfold firsts
  apply firstsBy_map
  intro x y
  exact ⟨h x y, fun e => by simpa using congrArg g e⟩
end

section
variable {A B A' B' α : Type}

theorem enum_map (bs : List B) (g : B → B') :
    enum (bs.map g) = (enum bs).map fun p => (p.1, g p.2) := by
  simp [enum, List.zipIdx_map, Function.comp_def]

theorem Mat.ofRel_map (as : List A) (bs : List B) (ga : A → A') (gb : B → B')
    (g : A' → B' → Option α) (g' : A → B → Option α) (h : ∀ a b, g (ga a) (gb b) = g' a b) :
    Mat.ofRel (as.map ga) (bs.map gb) g = Mat.ofRel as bs g' := by
  unfold Mat.ofRel
  simp [enum_map, List.filterMap_map, Function.comp_def, h]
end

section
variable {S V X S' V' X' α : Type} [DecidableEq S] [DecidableEq V] [DecidableEq X]
  [DecidableEq S'] [DecidableEq V'] [DecidableEq X'] (ρ : Renaming S V X S' V' X')
  (l : List (S × V × X))

/-- A claim renamed. -/
def rnClaim (c : V × X) : V' × X' := (ρ.var c.1, ρ.val c.1 c.2)

theorem rnClaim_inj (c d : V × X) (h : rnClaim ρ c = rnClaim ρ d) : c = d := by
  obtain ⟨v, x⟩ := c
  obtain ⟨w, y⟩ := d
  simp only [rnClaim, Prod.mk.injEq] at h
  obtain rfl := ρ.var_inj _ _ h.1
  rw [ρ.val_inj _ _ _ h.2]

theorem source_iff (a b : S) : ρ.source a = ρ.source b ↔ a = b :=
  ⟨ρ.source_inj a b, fun h => by rw [h]⟩
theorem var_iff (a b : V) : ρ.var a = ρ.var b ↔ a = b :=
  ⟨ρ.var_inj a b, fun h => by rw [h]⟩
theorem rnClaim_iff (a b : V × X) : rnClaim ρ a = rnClaim ρ b ↔ a = b :=
  ⟨rnClaim_inj ρ a b, fun h => by rw [h]⟩

theorem sources_rename : sources (ρ.triples l) = (sources l).map ρ.source := by
  unfold sources
  rw [← firsts_map _ ρ.source_inj]
  simp [Renaming.triples, Function.comp_def]

theorem recorded_rename : recorded (ρ.triples l) = ρ.triples (recorded l) := by
  unfold recorded Renaming.triples
  apply firstsBy_map
  intro x y
  simp [Prod.ext_iff, source_iff, var_iff]

theorem claims_rename : claims (ρ.triples l) = (claims l).map (rnClaim ρ) := by
  unfold claims
  rw [recorded_rename, ← firsts_map _ (rnClaim_inj ρ)]
  simp [Renaming.triples, Function.comp_def, rnClaim]

theorem noRepeats_rename : NoRepeats (ρ.triples l) ↔ NoRepeats l := by
  unfold NoRepeats
  have : ((ρ.triples l).map fun t => (t.1, t.2.1)) =
      (l.map fun t => (t.1, t.2.1)).map fun p => (ρ.source p.1, ρ.var p.2) := by
    simp [Renaming.triples, Function.comp_def]
  rw [this, List.nodup_map_iff]
  intro a b h
  simp only [Prod.mk.injEq] at h
  exact Prod.ext (ρ.source_inj _ _ h.1) (ρ.var_inj _ _ h.2)

theorem mem_recorded_rename (s : S) (c : V × X) :
    (ρ.source s, rnClaim ρ c) ∈ recorded (ρ.triples l) ↔ (s, c) ∈ recorded l := by
  rw [recorded_rename]
  constructor
  · intro h
    obtain ⟨t, ht, e⟩ := List.mem_map.1 h
    simp only [Prod.mk.injEq, rnClaim] at e
    have : t = (s, c) := by
      exact Prod.ext (ρ.source_inj _ _ e.1) (rnClaim_inj ρ _ _ (Prod.ext e.2.1 e.2.2))
    rwa [← this]
  · intro h
    exact List.mem_map.2 ⟨_, h, rfl⟩

variable [Arith α] {f : Option (V → X → X → Option α)} {f' : Option (V' → X' → X' → Option α)}

theorem impL_rename (hf : ρ.Agrees f f') (c d : V × X) :
    impL f' (rnClaim ρ c) (rnClaim ρ d) = impL f c d := by
  cases f <;> cases f' <;> simp only [Renaming.Agrees] at hf
  · rfl
  · simp only [impL]
    have h1 := rnClaim_iff ρ c d
    have h2 := var_iff ρ c.1 d.1
    by_cases hc : c ≠ d ∧ c.1 = d.1
    · rw [if_pos hc, if_pos]
      · have := hf c.1 c.2 d.2
        rw [rnClaim, rnClaim, ← hc.2]; exact this
      · exact ⟨fun e => hc.1 (h1.1 e), h2.2 hc.2⟩
    · rw [if_neg hc, if_neg]
      rintro ⟨e1, e2⟩
      exact hc ⟨fun e => e1 (h1.2 e), h2.1 e2⟩

theorem matsOf_rename (hf : ρ.Agrees f f') : matsOf (ρ.triples l) f' = matsOf l f := by
  have h1 : (matsOf (ρ.triples l) f').sc = (matsOf l f).sc := by
    rw [sc_eq_ofRel, sc_eq_ofRel, sources_rename, claims_rename]
    apply Mat.ofRel_map
    intro a b
    unfold scL
    congr 1
    rw [decide_eq_decide]
    exact mem_recorded_rename ρ l a b
  have h2 : (matsOf (ρ.triples l) f').mutEx = (matsOf l f).mutEx := by
    rw [mutEx_eq_ofRel, mutEx_eq_ofRel, claims_rename]
    apply Mat.ofRel_map
    intro a b
    simp [mxL, rnClaim, var_iff]
  have h3 : (matsOf (ρ.triples l) f').imp = (matsOf l f).imp := by
    rw [imp_eq_ofRel, imp_eq_ofRel, claims_rename]
    exact Mat.ofRel_map _ _ _ _ _ _ (impL_rename ρ hf)
  have h4 : (matsOf (ρ.triples l) f').numSources = (matsOf l f).numSources := by
    simp [matsOf, sources_rename]
  have h5 : (matsOf (ρ.triples l) f').numClaims = (matsOf l f).numClaims := by
    simp [matsOf, claims_rename]
  exact match matsOf (ρ.triples l) f', matsOf l f, h1, h2, h3, h4, h5 with
    | ⟨_, _, _, _, _⟩, ⟨_, _, _, _, _⟩, h1, h2, h3, h4, h5 => by
      simp only at h1 h2 h3 h4 h5
      rw [h1, h2, h3, h4, h5]

theorem beliefOf_rename (cs : List (V × X)) (y : List α) :
    beliefOf (cs.map (rnClaim ρ)) y =
      (beliefOf cs y).map fun p => (ρ.var p.1, p.2.map fun q => (ρ.val p.1 q.1, q.2)) := by
  unfold beliefOf
  have : (cs.map (rnClaim ρ)).map Prod.fst = (cs.map Prod.fst).map ρ.var := by
    simp [rnClaim, Function.comp_def]
  rw [this, firsts_map _ ρ.var_inj, List.map_map, List.map_map]
  apply List.map_congr_left
  intro v _
  simp only [Function.comp_apply, Prod.mk.injEq, true_and]
  rw [List.zip_map_left, List.filterMap_map, List.map_filterMap]
  apply List.filterMap_congr
  rintro ⟨c, a⟩ _
  by_cases h : c.1 = v
  · simp [rnClaim, h]
  · simp [rnClaim, h, var_iff]

theorem resultOf_rename (t b : Vec α) (time : α) (it : Option Nat) :
    resultOf (ρ.triples l) t b time it = ρ.result (resultOf l t b time it) := by
  unfold resultOf Renaming.result
  simp only [sources_rename, claims_rename, beliefOf_rename, List.zip_map_left]
  rfl

theorem optImpBad_rename (hf : ρ.Agrees f f') :
    optImpBad (ρ.triples l) f' ↔ optImpBad l f := by
  cases f <;> cases f' <;> simp only [Renaming.Agrees] at hf
  · rfl
  rename_i f f'
  simp only [optImpBad, impBad, claims_rename]
  constructor
  · rintro ⟨c', hc', d', hd', h⟩
    obtain ⟨c, hc, rfl⟩ := List.mem_map.1 hc'
    obtain ⟨d, hd, rfl⟩ := List.mem_map.1 hd'
    obtain ⟨h1, h2, x, h3, h4⟩ := h
    have e2 : c.1 = d.1 := ρ.var_inj _ _ h2
    refine ⟨c, hc, d, hd, fun e => h1 (by rw [e]), e2, x, ?_, h4⟩
    rw [← h3, rnClaim, rnClaim, ← e2]; exact (hf _ _ _).symm
  · rintro ⟨c, hc, d, hd, h1, h2, x, h3, h4⟩
    refine ⟨_, List.mem_map_of_mem hc, _, List.mem_map_of_mem hd,
      fun e => h1 (rnClaim_inj ρ _ _ e), ?_, x, ?_, h4⟩
    · simp [rnClaim, h2]
    · rw [← h3, rnClaim, rnClaim, ← h2]; exact hf _ _ _

end
end TD
