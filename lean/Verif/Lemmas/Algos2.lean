import Verif.Lemmas.Algos
import Mathlib.Algebra.BigOperators.Ring.Finset

/-! TruthFinder, CRH and UnboundedSums. -/

namespace TD
open Spec Ex
attribute [-instance] instBEqProd

theorem rowDot_weights {B : Type} [DecidableEq B] {bs : List B} (hb : bs.Nodup) {g : B → Option Ex}
    {w : B → ℝ} (hg : ∀ b ∈ bs, g b = some (fin (w b)) ∨ (g b = none ∧ w b = 0)) (F : B → ℝ) :
    rowDot bs g (fun b => fin (F b)) = fin (∑ b ∈ bs.toFinset, w b * F b) := by
  classical
  rw [rowDot_eq hb (fun b => g b ≠ none) (h := w)]
  · congr 1
    rw [Finset.sum_filter]
    apply Finset.sum_congr rfl
    intro b hbm
    rcases hg b (by simpa using hbm) with h | ⟨h, h0⟩
    · simp [h]
    · simp [h, h0]
  · intro b hbm
    rcases hg b hbm with h | ⟨h, h0⟩
    · simp [h]
    · simp [h]

variable {S V X : Type} [DecidableEq S] [DecidableEq V] [DecidableEq X]
variable {l : List (S × V × X)}

/-- Implication between claims. -/
noncomputable def impC (f0 : Option (V → X → X → Option ℝ)) (c d : V × X) : ℝ :=
  if c ≠ d ∧ c.1 = d.1 then impVal f0 c.1 c.2 d.2 else 0

theorem impL_fin (f0 : Option (V → X → X → Option ℝ)) (c d : V × X) :
    impL (finImp f0) c d = some (fin (impC f0 c d)) ∨
      (impL (finImp f0) c d = none ∧ impC f0 c d = 0) := by
  unfold impL finImp impC impVal
  cases f0 with
  | none => right; simp
  | some g =>
    simp only [Option.map_some]
    by_cases h : c ≠ d ∧ c.1 = d.1
    · rw [if_pos h, if_pos h]
      cases g c.1 c.2 d.2 with
      | none => right; simp
      | some v => left; simp
    · rw [if_neg h, if_neg h]; right; simp

/-- Label-level version of `impScEntry`. -/
def impScL {α : Type} [Arith α] (l : List (S × V × X)) (f : Option (V → X → X → Option α)) (c : V × X) (s : S) :
    Option α :=
  let terms := (claims l).filterMap fun d => (scL l s d).bind fun e =>
    (impL f d c).map fun v => e *. v
  if terms.isEmpty then none else some (terms.foldl Arith.add (Arith.ofNat 0))

theorem row_ofRel {α A B : Type} (as : List A) (bs : List B) (g : A → B → Option α) {i : Nat} {a : A}
    (ha : as[i]? = some a) : (Mat.ofRel as bs g).rows.getD i [] =
      (enum bs).filterMap fun p => (g a p.2).map fun v => (p.1, v) := by
  simp [Mat.ofRel, List.getD_eq_getElem?_getD, ha]

theorem lookup_ofRel {α A B : Type} (as : List A) (bs : List B) (g : A → B → Option α) {i j : Nat}
    {a : A} {b : B} (ha : as[i]? = some a) (hb : bs[j]? = some b) :
    ((Mat.ofRel as bs g).rows.getD i []).lookup j = g a b := by
  rw [Mat.ofRel_eq_ofFn, Mat.ofFn_lookup]
  have hi : i < as.length := by
    by_contra h; rw [List.getElem?_eq_none (by omega)] at ha; simp at ha
  have hj : j < bs.length := by
    by_contra h; rw [List.getElem?_eq_none (by omega)] at hb; simp at hb
  rw [List.getElem?_eq_getElem hi] at ha
  rw [List.getElem?_eq_getElem hj] at hb
  simp only [Option.some.injEq] at ha hb
  simp [ha, hb, hi, hj]

theorem impScEntry_label {α : Type} [Arith α] (f : Option (V → X → X → Option α)) {i j : Nat} {s : S} {c : V × X}
    (hs : (sources l)[i]? = some s) (hc : (claims l)[j]? = some c) :
    impScEntry (matsOf l f) j i = impScL l f c s := by
  unfold impScEntry impScL
  rw [sc_eq_ofRel, row_ofRel _ _ _ hs, imp_eq_ofRel]
  have : (((enum (claims l)).filterMap fun p => (scL l s p.2 : Option α).map fun v => (p.1, v)).filterMap
      fun e => (((Mat.ofRel (claims l) (claims l) (impL f)).rows.getD e.1 []).lookup j).map
        fun v => e.2 *. v) =
      (claims l).filterMap fun d => (scL l s d).bind fun e => (impL f d c).map fun v => e *. v := by
    rw [List.filterMap_filterMap]
    conv_rhs => rw [← enum_map_snd (claims l), List.filterMap_map]
    apply List.filterMap_congr
    intro p hp
    rw [mem_enum] at hp
    simp only [Function.comp_apply]
    cases (scL l s p.2 : Option α) with
    | none => rfl
    | some e =>
      simp only [Option.map_some, Option.bind_some]
      rw [lookup_ofRel _ _ _ hp hc]
  rw [this]

/-- Label-level entries of `b_mat`. -/
def tfBL {α : Type} [Arith α] (l : List (S × V × X)) (f : Option (V → X → X → Option α)) (rho : α)
    (c : V × X) (s : S) : Option α :=
  let v := match (scL l s c : Option α), (impScL l f c s).map (rho *. ·) with
    | none, none => none
    | some a, none => some a
    | none, some c => some c
    | some a, some c => some (a +. c)
  match v with
  | none => none
  | some v => if Arith.eq v (Arith.ofNat 0) then none else some v

theorem tfB_eq {α : Type} [Arith α] (f : Option (V → X → X → Option α)) (rho : α) :
    tfB rho (matsOf l f) = Mat.ofRel (claims l) (sources l) (tfBL l f rho) := by
  rw [Mat.ofRel_eq_ofFn]
  unfold tfB Mat.ofFn
  have h1 : (matsOf l f).numClaims = (claims l).length := rfl
  have h2 : (matsOf l f).numSources = (sources l).length := rfl
  rw [h1, h2]
  congr 1
  apply List.map_congr_left
  intro j hj
  apply List.filterMap_congr
  intro i hi
  have hj' : (claims l)[j]? = some ((claims l)[j]'(by simpa using hj)) := List.getElem?_eq_getElem _
  have hi' : (sources l)[i]? = some ((sources l)[i]'(by simpa using hi)) := List.getElem?_eq_getElem _
  rw [impScEntry_label f hi' hj', sc_eq_ofRel, lookup_ofRel _ _ _ hi' hj']
  simp only [hi', hj', Option.bind_some, tfBL]
  generalize (scL l _ _ : Option α) = a
  generalize impScL l f _ _ = b
  cases a <;> cases b <;> simp only [Option.map_none, Option.map_some] <;> split <;> rfl

theorem foldl_terms {B : Type} [DecidableEq B] {bs : List B} (hb : bs.Nodup) {g : B → Option Ex}
    {w : B → ℝ} (hg : ∀ b ∈ bs, g b = some (fin (w b)) ∨ (g b = none ∧ w b = 0)) :
    (bs.filterMap g).foldl Arith.add (Arith.ofNat 0) = fin (∑ b ∈ bs.toFinset, w b) ∧
    (bs.filterMap g = [] → ∑ b ∈ bs.toFinset, w b = 0) := by
  have key : ∀ L : List B, (∀ b ∈ L, b ∈ bs) →
      ∀ a : ℝ, (L.filterMap g).foldl Arith.add (fin a) = fin (a + (L.map w).sum) := by
    intro L
    induction L with
    | nil => intro _ a; simp
    | cons b L ih =>
      intro hL a
      have ih' := ih (fun c hc => hL c (by simp [hc]))
      rcases hg b (hL b (by simp)) with h | ⟨h, h0⟩
      · simp [h, ih', add_assoc]
      · simp [h, h0, ih']
  have hsum : ∑ b ∈ bs.toFinset, w b = (bs.map w).sum := List.sum_toFinset w hb
  have h0 : (Arith.ofNat 0 : Ex) = fin 0 := by simp
  have k := key bs (fun _ h => h) 0
  rw [zero_add] at k
  refine ⟨by rw [h0, hsum]; exact k, ?_⟩
  intro hnil
  rw [hnil] at k
  rw [hsum]
  exact (fin_inj.1 k).symm

/-- Total implication on claim `c` by the claims of `s`. -/
noncomputable def impSum (l : List (S × V × X)) (f0 : Option (V → X → X → Option ℝ)) (c : V × X) (s : S) : ℝ :=
  ∑ d ∈ allClaims l, if (s, d) ∈ recorded l then impC f0 d c else 0

theorem impScL_fin (f0 : Option (V → X → X → Option ℝ)) (c : V × X) (s : S) :
    impScL l (finImp f0) c s = some (fin (impSum l f0 c s)) ∨
      (impScL l (finImp f0) c s = none ∧ impSum l f0 c s = 0) := by
  have hg : ∀ d ∈ claims l, ((scL l s d : Option Ex).bind fun e =>
      (impL (finImp f0) d c).map fun v => e *. v) =
        some (fin (if (s, d) ∈ recorded l then impC f0 d c else 0)) ∨
      (((scL l s d : Option Ex).bind fun e => (impL (finImp f0) d c).map fun v => e *. v) = none ∧
        (if (s, d) ∈ recorded l then impC f0 d c else 0) = 0) := by
    intro d _
    rw [scL_eq]
    by_cases h : (s, d) ∈ recorded l
    · rw [if_pos h, if_pos h]
      simp only [Option.bind_some]
      rcases impL_fin f0 d c with h1 | ⟨h1, h2⟩
      · left; rw [h1]; simp
      · right; rw [h1]; simp [h2]
    · rw [if_neg h, if_neg h]; right; simp
  obtain ⟨h1, h2⟩ := foldl_terms (nodup_claims l) hg
  rw [claims_toFinset] at h1 h2
  unfold impScL
  by_cases h : ((claims l).filterMap fun d => (scL l s d : Option Ex).bind fun e =>
      (impL (finImp f0) d c).map fun v => e *. v) = []
  · right
    simp only [h, List.isEmpty_nil, ↓reduceIte, true_and]
    exact h2 h
  · left
    simp only [List.isEmpty_iff, h, ↓reduceIte]
    rw [h1]; rfl

theorem tfBL_fin (f0 : Option (V → X → X → Option ℝ)) (rho : ℝ) (c : V × X) (s : S) :
    tfBL l (finImp f0) (fin rho) c s =
      some (fin ((if (s, c) ∈ recorded l then 1 else 0) + rho * impSum l f0 c s)) ∨
    (tfBL l (finImp f0) (fin rho) c s = none ∧
      (if (s, c) ∈ recorded l then (1 : ℝ) else 0) + rho * impSum l f0 c s = 0) := by
  have fin0 : ∀ x : ℝ, (if Arith.eq (fin x) (Arith.ofNat 0 : Ex) = true then (none : Option Ex)
      else some (fin x)) = some (fin x) ∨ ((if Arith.eq (fin x) (Arith.ofNat 0 : Ex) = true then
        (none : Option Ex) else some (fin x)) = none ∧ x = 0) := by
    intro x
    by_cases h : x = 0
    · right; simp [h]
    · left; simp [h]
  unfold tfBL
  rw [scL_eq]
  by_cases h : (s, c) ∈ recorded l
  · simp only [if_pos h]
    rcases impScL_fin (l := l) f0 c s with h1 | ⟨h1, h2⟩
    · rw [h1]; simp only [Option.map_some, mul_eq, add_eq]; exact fin0 _
    · rw [h1, h2]; simp only [Option.map_none, mul_zero, add_zero]; exact fin0 _
  · simp only [if_neg h, zero_add]
    rcases impScL_fin (l := l) f0 c s with h1 | ⟨h1, h2⟩
    · rw [h1]; simp only [Option.map_some, mul_eq]; exact fin0 _
    · rw [h1, h2]; simp only [Option.map_none, mul_zero]; right; simp

/-- Log belief of TruthFinder. -/
noncomputable def sigmaStar (l : List (S × V × X)) (f0 : Option (V → X → X → Option ℝ)) (rho : ℝ)
    (tau : S → ℝ) (c : V × X) : ℝ :=
  (∑ s ∈ sourcesOf l c, tau s) + rho * ∑ d ∈ (rivals l c).erase c,
    impVal f0 c.1 d.2 c.2 * ∑ s ∈ sourcesOf l d, tau s

theorem sigmaStar_eq (f0 : Option (V → X → X → Option ℝ)) (rho : ℝ) (tau : S → ℝ) {c : V × X} :
    ∑ s ∈ allSources l, ((if (s, c) ∈ recorded l then (1 : ℝ) else 0) + rho * impSum l f0 c s) * tau s =
      sigmaStar l f0 rho tau c := by
  have h1 : ∀ d : V × X, ∑ s ∈ sourcesOf l d, tau s =
      ∑ s ∈ allSources l, (if (s, d) ∈ recorded l then tau s else 0) := by
    intro d
    rw [← Finset.sum_filter]
    simp only [sourcesOf]
    congr!
  have h2 : ∑ d ∈ (rivals l c).erase c, impVal f0 c.1 d.2 c.2 * ∑ s ∈ sourcesOf l d, tau s =
      ∑ d ∈ allClaims l, impC f0 d c * ∑ s ∈ sourcesOf l d, tau s := by
    have hsub : (rivals l c).erase c ⊆ allClaims l := by
      intro d hd
      exact (mem_allClaims l).2 ((mem_rivals l).1 (Finset.mem_of_mem_erase hd)).1
    rw [← Finset.sum_subset hsub]
    · apply Finset.sum_congr rfl
      intro d hd
      obtain ⟨hne, hd⟩ := Finset.mem_erase.1 hd
      have hv := ((mem_rivals l).1 hd).2
      simp [impC, hne, hv]
    · intro d hd hnd
      have : impC f0 d c = 0 := by
        unfold impC
        rw [if_neg]
        rintro ⟨hne, hv⟩
        exact hnd (Finset.mem_erase.2 ⟨hne, (mem_rivals l).2 ⟨(mem_allClaims l).1 hd, hv.symm⟩⟩)
      rw [this, zero_mul]
  unfold sigmaStar
  rw [h2, h1]
  simp only [add_mul, Finset.sum_add_distrib, impSum]
  congr 1
  · apply Finset.sum_congr rfl; intro s _; split <;> simp
  · simp only [h1, mul_assoc, ← Finset.mul_sum]
    congr 1
    simp only [Finset.mul_sum, Finset.sum_mul]
    rw [Finset.sum_comm]
    apply Finset.sum_congr rfl; intro d _
    apply Finset.sum_congr rfl; intro s _
    split <;> simp

theorem tfB_mulVec (f0 : Option (V → X → X → Option ℝ)) (rho : ℝ) (tau : S → ℝ) :
    (tfB (fin rho) (matsOf l (finImp f0))).mulVec (repS l tau) = repC l (sigmaStar l f0 rho tau) := by
  unfold repS repC
  rw [tfB_eq, Mat.mulVec_ofRel]
  apply List.map_congr_left
  intro c _
  rw [rowDot_weights (nodup_sources l) (fun s _ => tfBL_fin f0 rho c s), sources_toFinset,
    sigmaStar_eq]

theorem tfA_mulVec (f : Option (V → X → X → Option Ex)) (b : V × X → ℝ) :
    (tfA (matsOf l f)).mulVec (repC l b) =
      repS l fun s => (∑ c ∈ claimsOf l s, b c) / nClaims l s := by
  unfold tfA
  have h : (claimCounts (matsOf l f)).map ((Arith.ofNat 1 : Ex) /. ·) =
      repS l fun s => 1 / nClaims l s := by
    rw [claimCounts_rep]
    apply mapS
    intro s hs
    simp only [ofNat_eq, Nat.cast_one]
    exact div_eq _ (nClaims_pos l hs).ne'
  rw [h]
  unfold repS repC
  rw [sc_eq_ofRel, Mat.scaleRows_ofRel, Mat.mulVec_ofRel]
  apply List.map_congr_left
  intro s _
  rw [rowDot_eq (nodup_claims l) (fun c => (s, c) ∈ recorded l) (h := fun _ => 1 / nClaims l s)]
  · rw [claims_toFinset, ← Finset.mul_sum, one_div_mul_eq_div]
    simp only [claimsOf]
    congr!
  · intro c _
    rw [scL_eq]
    split <;> simp

/-- Trust scores in `[0, 1)`. -/
def TfInv (l : List (S × V × X)) (p : Scores S V X) : Prop := ∀ s ∈ sources l, 0 ≤ p.1 s ∧ p.1 s < 1

theorem sigmoid_pos (x : ℝ) : 0 < 1 / (1 + Real.exp x) := by positivity
theorem sigmoid_lt (x : ℝ) : 1 / (1 + Real.exp x) < 1 := by
  rw [div_lt_one (by positivity)]
  linarith [Real.exp_pos x]

theorem mean_pos_lt {b : V × X → ℝ} (hb : ∀ c ∈ claims l, 0 < b c ∧ b c < 1) {s : S}
    (hs : s ∈ sources l) :
    0 < (∑ c ∈ claimsOf l s, b c) / nClaims l s ∧ (∑ c ∈ claimsOf l s, b c) / nClaims l s < 1 := by
  have hn := nClaims_pos l hs
  have hne := claimsOf_nonempty l hs
  refine ⟨div_pos (Finset.sum_pos (fun c hc => (hb c (mem_claims_of_claimsOf l hc)).1) hne) hn, ?_⟩
  rw [div_lt_one hn]
  calc ∑ c ∈ claimsOf l s, b c < ∑ c ∈ claimsOf l s, (1 : ℝ) :=
        Finset.sum_lt_sum_of_nonempty hne fun c hc => (hb c (mem_claims_of_claimsOf l hc)).2
    _ = nClaims l s := by simp [nClaims]

theorem tf_implements (f0 : Option (V → X → X → Option ℝ)) (it : IterCfg Ex) (pr : Option Prior)
    (rho gamma t0 : ℝ) (h0 : 0 ≤ t0) (h1 : t0 < 1) :
    Implements ⟨.truthFinder (fin rho) (fin gamma) (fin t0), it, pr⟩ l (finImp f0)
      ((fun _ => t0), (fun _ => 0)) (tfStep l (impVal f0) rho gamma)
      (fun q => ((tfStep l (impVal f0) rho gamma q).1, q.1)) (TfInv l) where
  init_eq := by
    simp only [AlgCfg.init]
    congr 2
    · show List.replicate (sources l).length _ = _
      simp [repS]
    · exact zeros_claims l _
  inv_init := fun _ _ => ⟨h0, h1⟩
  body_eq := by
    intro q hq
    have hany : ((repS l q.1).any fun t => Arith.eq t (Arith.ofNat 1)) = false := by
      rw [List.any_eq_false]
      intro x hx
      simp only [repS, List.mem_map] at hx
      obtain ⟨s, hs, rfl⟩ := hx
      have := (hq s hs).2.ne
      simpa using this
    have htau : (repS l q.1).map (fun t => Arith.neg (Arith.log ((Arith.ofNat 1 : Ex) -. t))) =
        repS l fun s => -Real.log (1 - q.1 s) := by
      apply mapS
      intro s hs
      have : 0 < 1 - q.1 s := by linarith [(hq s hs).2]
      simp only [ofNat_eq, Nat.cast_one, sub_eq, log_eq this, neg_eq]
    have hbel : ∀ x : V × X → ℝ, (repC l x).map (fun y => (Arith.ofNat 1 : Ex) /.
        ((Arith.ofNat 1 : Ex) +. Arith.exp (Arith.neg (fin gamma) *. y))) =
        repC l fun c => 1 / (1 + Real.exp (-gamma * x c)) := by
      intro x
      apply mapC
      intro c _
      have : (1 : ℝ) + Real.exp (-gamma * x c) ≠ 0 := by positivity
      simp only [ofNat_eq, Nat.cast_one, neg_eq, mul_eq, exp_eq, add_eq]
      exact div_eq _ this
    simp only [Kind.body, tfBody, logTrust, hany, Bool.false_eq_true, ↓reduceIte, htau, tfB_mulVec,
      hbel, tfA_mulVec]
    rfl
  inv_step := by
    intro q hq s hs
    have := mean_pos_lt (l := l) (b := fun c => 1 / (1 + Real.exp (-gamma * sigmaStar l f0 rho
      (fun s => -Real.log (1 - q.1 s)) c))) (fun c _ => ⟨sigmoid_pos _, sigmoid_lt _⟩) hs
    exact ⟨this.1.le, this.2⟩

/-! ### CRH -/

theorem crhZ_rep (f : Option (V → X → X → Option Ex)) (b : V × X → ℝ) {k : Nat} {c : V × X}
    (hk : (claims l)[k]? = some c) :
    crhZ (matsOf l f) (repC l b) k =
      repC l fun d => (if c.1 = d.1 then (b d - if c = d then 1 else 0) ^ 2 else 0) := by
  unfold crhZ repC
  have h1 : (matsOf l f).numClaims = (claims l).length := rfl
  rw [h1]
  apply List.ext_getElem?
  intro j
  rcases Nat.lt_or_ge j (claims l).length with hj | hj
  · simp only [List.getElem?_map, List.getElem?_range hj, List.getElem?_eq_getElem hj, Option.map_some,
      Option.some.injEq]
    have hj' : (claims l)[j]? = some (claims l)[j] := List.getElem?_eq_getElem hj
    generalize hd : (claims l)[j] = d
    rw [hd] at hj'
    have hat : Vec.at ((claims l).map fun c => fin (b c)) j = fin (b d) :=
      Vec.at_map (F := fun c => fin (b c)) (p := (j, d)) (mem_enum.2 hj')
    have hget : (matsOf l f).mutEx.get k j = fin (if c.1 = d.1 then 1 else 0) := by
      unfold Mat.get
      rw [mutEx_eq_ofRel, lookup_ofRel _ _ _ hk hj']
      unfold mxL oneIf
      by_cases h : c.1 = d.1 <;> simp [h]
    have hkj : k = j ↔ c = d := by
      constructor
      · rintro rfl; rw [hk] at hj'; exact Option.some.inj hj'
      · rintro rfl
        have hkl : k < (claims l).length := by
          by_contra h; rw [List.getElem?_eq_none (by omega)] at hk; simp at hk
        exact (List.getElem?_inj hkl (nodup_claims l)).1 (hk.trans hj'.symm)
    rw [hat, hget]
    by_cases h : c = d
    · rw [if_pos (hkj.2 h)]
      subst h
      simp [sq]
    · rw [if_neg (fun e => h (hkj.1 e))]
      by_cases h' : c.1 = d.1
      · simp [h, h', sq]
      · simp [h']
  · rw [List.getElem?_eq_none (by simpa using hj), List.getElem?_eq_none (by simpa using hj)]

theorem crhAlpha_rep (f : Option (V → X → X → Option Ex)) (eps : ℝ) (b : V × X → ℝ) :
    crhAlpha (fin eps) (matsOf l f) (repC l b) = repS l fun s => eps + loss l b s := by
  unfold crhAlpha
  rw [sc_eq_ofRel]
  unfold Mat.ofRel repS
  simp only [List.map_map]
  apply List.map_congr_left
  intro s _
  simp only [Function.comp_apply]
  have hrow : ((List.range (matsOf l f).numClaims).map fun j =>
      ((enum (claims l)).filterMap fun p => (scL l s p.2 : Option Ex).map fun v => (p.1, v)).foldl
        (fun acc e => acc +. e.2 *. (crhZ (matsOf l f) (repC l b) e.1).at j) (Arith.ofNat 0)) =
      repC l fun d => ∑ c ∈ claimsOf l s,
        if c.1 = d.1 then (b d - if c = d then 1 else 0) ^ 2 else 0 := by
    have h1 : (matsOf l f).numClaims = (claims l).length := rfl
    rw [h1]
    unfold repC
    apply List.ext_getElem?
    intro j
    rcases Nat.lt_or_ge j (claims l).length with hj | hj
    · simp only [List.getElem?_map, List.getElem?_range hj, List.getElem?_eq_getElem hj,
        Option.map_some, Option.some.injEq]
      have hj' : (claims l)[j]? = some (claims l)[j] := List.getElem?_eq_getElem hj
      generalize hd : (claims l)[j] = d
      rw [hd] at hj'
      have key : ∀ E : List (Nat × (V × X)), (∀ p ∈ E, p ∈ enum (claims l)) → ∀ a : Ex,
          (E.filterMap fun p => (scL l s p.2 : Option Ex).map fun v => (p.1, v)).foldl
            (fun acc e => acc +. e.2 *. (crhZ (matsOf l f) ((claims l).map fun c => fin (b c)) e.1).at j) a =
          (E.map Prod.snd).foldl (rowStep (scL l s) fun c =>
            fin (if c.1 = d.1 then (b d - if c = d then 1 else 0) ^ 2 else 0)) a := by
        intro E
        induction E with
        | nil => intro _ a; rfl
        | cons p E ih =>
          intro hE a
          have ih' := ih (fun q hq => hE q (by simp [hq]))
          have hp := mem_enum.1 (hE p (by simp))
          have hz : (crhZ (matsOf l f) ((claims l).map fun c => fin (b c)) p.1).at j =
              fin (if p.2.1 = d.1 then (b d - if p.2 = d then 1 else 0) ^ 2 else 0) := by
            have := crhZ_rep f b hp
            unfold repC at this
            rw [this]
            exact Vec.at_map (F := fun d => fin (if p.2.1 = d.1 then (b d - if p.2 = d then 1 else 0) ^ 2
              else 0)) (p := (j, d)) (mem_enum.2 hj')
          cases hg : (scL l s p.2 : Option Ex) with
          | none =>
            simp only [List.filterMap_cons, hg, Option.map_none, List.map_cons, List.foldl_cons,
              rowStep]
            exact ih' a
          | some v =>
            simp only [List.filterMap_cons, hg, Option.map_some, List.map_cons, List.foldl_cons,
              rowStep, hz]
            exact ih' _
      rw [key _ (fun _ h => h), enum_map_snd]
      have := rowDot_eq (nodup_claims l) (fun c => (s, c) ∈ recorded l) (h := fun _ => 1)
        (g := scL l s) (fun c _ => scL_eq l s c)
        (fun c => if c.1 = d.1 then (b d - if c = d then 1 else 0) ^ 2 else 0)
      unfold rowDot at this
      rw [this, claims_toFinset]
      simp only [claimsOf, one_mul]
      congr!
    · rw [List.getElem?_eq_none (by simpa using hj), List.getElem?_eq_none (by simpa using hj)]
  rw [hrow]
  have hones : (ones (matsOf l f).numClaims : Vec Ex) = (claims l).map fun _ => fin 1 := ones_claims l f
  unfold repC
  rw [hones, dot_eq, add_eq]
  congr 2
  rw [← List.sum_toFinset _ (nodup_claims l), claims_toFinset]
  simp only [mul_one, loss]
  rw [Finset.sum_comm]
  apply Finset.sum_congr rfl
  intro c _
  rw [rivals, Finset.sum_filter]

theorem sumS (t : S → ℝ) : Arith.sum (repS l t) = fin (∑ s ∈ allSources l, t s) := by
  have : repS l t = ((sources l).map t).map fin := by simp [repS]
  rw [this, sum_eq, ← sources_toFinset, List.sum_toFinset _ (nodup_sources l)]

theorem loss_nonneg (b : V × X → ℝ) (s : S) : 0 ≤ loss l b s :=
  Finset.sum_nonneg fun _ _ => Finset.sum_nonneg fun _ _ => sq_nonneg _

/-- CRH weights are at least `eps`. -/
theorem crhT_ge (hl : l ≠ []) {eps : ℝ} (he : 0 < eps) (b : V × X → ℝ) {s : S} (hs : s ∈ sources l) :
    0 < (eps + loss l b s) / ∑ r ∈ allSources l, (eps + loss l b r) ∧
    (eps + loss l b s) / ∑ r ∈ allSources l, (eps + loss l b r) ≤ 1 := by
  have hpos : ∀ r, 0 < eps + loss l b r := fun r => by linarith [loss_nonneg (l := l) b r]
  have hsum : 0 < ∑ r ∈ allSources l, (eps + loss l b r) :=
    Finset.sum_pos (fun r _ => hpos r) (allSources_nonempty hl)
  refine ⟨div_pos (hpos s) hsum, ?_⟩
  rw [div_le_one hsum]
  exact Finset.single_le_sum (f := fun r => eps + loss l b r) (fun r _ => (hpos r).le)
    ((mem_allSources l).2 hs)

theorem crhT_ge' (hl : l ≠ []) {eps : ℝ} (he : 0 < eps) (p : Scores S V X) {s : S} (hs : s ∈ sources l) :
    eps ≤ (crhStep l eps p).1 s := by
  obtain ⟨h1, h2⟩ := crhT_ge hl he p.2 hs
  have := Real.log_nonpos h1.le h2
  show eps ≤ eps - Real.log _
  linarith

theorem crhT_sum_pos (hl : l ≠ []) {eps : ℝ} (he : 0 < eps) (p : Scores S V X) :
    0 < ∑ r ∈ allSources l, (crhStep l eps p).1 r :=
  Finset.sum_pos (fun r hr => he.trans_le (crhT_ge' hl he p ((mem_allSources l).1 hr)))
    (allSources_nonempty hl)

/-- Initial scores of CRH. -/
noncomputable def crhInit (l : List (S × V × X)) : Scores S V X :=
  ((fun _ => 0), fun c => nSources l c / (allSources l).card)

theorem crh_implements (hl : l ≠ []) (f : Option (V → X → X → Option Ex)) (it : IterCfg Ex)
    (pr : Option Prior) (eps : ℝ) (he : 0 < eps) :
    Implements ⟨.crh (fin eps), it, pr⟩ l f (crhInit l) (crhStep l eps)
      (fun q => (q.1, (crhStep l eps q).1)) (fun _ => True) where
  init_eq := by
    simp only [AlgCfg.init, sourceCounts_rep]
    congr 2
    · exact zeros_sources l f
    · have hcard : ((matsOf l f).numSources : ℝ) = (allSources l).card := by
        rw [← sources_toFinset, List.toFinset_card_of_nodup (nodup_sources l)]; rfl
      have hpos : ((allSources l).card : ℝ) ≠ 0 := by
        have := (allSources_nonempty hl).card_pos
        positivity
      apply mapC
      intro c _
      rw [ofNat_eq, hcard, div_eq _ hpos]; rfl
  inv_init := trivial
  body_eq := by
    intro q _
    have hsum : 0 < ∑ r ∈ allSources l, (eps + loss l q.2 r) :=
      Finset.sum_pos (fun r _ => by linarith [loss_nonneg (l := l) q.2 r]) (allSources_nonempty hl)
    have ht : (repS l fun s => eps + loss l q.2 s).map (fun a => fin eps -.
        Arith.log (a /. fin (∑ r ∈ allSources l, (eps + loss l q.2 r)))) =
        repS l (crhStep l eps q).1 := by
      apply mapS
      intro s hs
      rw [div_eq _ hsum.ne', log_eq (crhT_ge hl he q.2 hs).1, sub_eq]
      rfl
    have hb : (repC l (sumBelief l (crhStep l eps q).1)).map
        (· /. fin (∑ r ∈ allSources l, (crhStep l eps q).1 r)) = repC l (crhStep l eps q).2 := by
      apply mapC
      intro c _
      rw [div_eq _ (crhT_sum_pos hl he q).ne']
      rfl
    simp only [Kind.body, crhBody, crhAlpha_rep, sumS, ht, scT_repS, hb]
  inv_step := fun _ _ => trivial

/-! ### UnboundedSums -/

/-- Divide by 1000 if the largest value exceeds 1000. -/
noncomputable def resc {A : Type} (F : Finset A) (f : A → ℝ) (a : A) : ℝ :=
  if 1000 < top F f then f a / 1000 else f a

/-- One iteration of UnboundedSums with its rescaling. -/
noncomputable def usumsResc (l : List (S × V × X)) (p : Scores S V X) : Scores S V X :=
  let q := usumsStep l p
  (resc (allSources l) q.1, resc (allClaims l) q.2)

theorem rescale_repS (hl : l ≠ []) (t : S → ℝ) :
    rescale (repS l t) = .ok (repS l (resc (allSources l) t)) := by
  have h := Ex.npMax_eq (sources_ne hl) t
  rw [sources_toFinset] at h
  unfold rescale
  have h' : npMax (repS l t) = .ok (fin (top (allSources l) t)) := h
  rw [h']
  simp only [bind, Except.bind, pure, Except.pure, ofNat_eq, lt_eq]
  congr 1
  by_cases hgt : ((1000 : Nat) : ℝ) < top (allSources l) t
  · simp only [hgt, decide_true, ↓reduceIte]
    apply mapS
    intro s _
    rw [div_eq _ (by norm_num)]
    unfold resc
    rw [if_pos (by simpa using hgt)]
    norm_num
  · simp only [hgt, decide_false, Bool.false_eq_true, ↓reduceIte]
    apply repS_congr
    intro s _
    unfold resc
    rw [if_neg (by simpa using hgt)]

theorem rescale_repC (hl : l ≠ []) (t : V × X → ℝ) :
    rescale (repC l t) = .ok (repC l (resc (allClaims l) t)) := by
  have h := Ex.npMax_eq (claims_ne hl) t
  rw [claims_toFinset] at h
  unfold rescale
  have h' : npMax (repC l t) = .ok (fin (top (allClaims l) t)) := h
  rw [h']
  simp only [bind, Except.bind, pure, Except.pure, ofNat_eq, lt_eq]
  congr 1
  by_cases hgt : ((1000 : Nat) : ℝ) < top (allClaims l) t
  · simp only [hgt, decide_true, ↓reduceIte]
    apply mapC
    intro s _
    rw [div_eq _ (by norm_num)]
    unfold resc
    rw [if_pos (by simpa using hgt)]
    norm_num
  · simp only [hgt, decide_false, Bool.false_eq_true, ↓reduceIte]
    apply repC_congr
    intro s _
    unfold resc
    rw [if_neg (by simpa using hgt)]

theorem usums_implements (hl : l ≠ []) (f : Option (V → X → X → Option Ex)) (it : IterCfg Ex)
    (p : Prior) :
    Implements ⟨.unboundedSums, it, some p⟩ l f ((fun _ => 0), priorOf l p) (usumsResc l)
      (fun q => (q.1, sumTrust l q.2)) (fun _ => True) where
  init_eq := by
    simp only [AlgCfg.init, priorBeliefs_rep, bind, Except.bind, pure, Except.pure]
    rw [zeros_sources]; rfl
  inv_init := trivial
  body_eq := by
    intro q _
    simp only [Kind.body, usumsBody, sc_repC, scT_repS, bind, Except.bind, pure, Except.pure,
      rescale_repS hl, rescale_repC hl]
    rfl
  inv_step := fun _ _ => trivial

end TD
