import Verif.Lemmas.Synthetic
import Verif.Props.Supervised
import Verif.Props.Algorithms
import Verif.Props.Backends
import Mathlib.MeasureTheory.Measure.Lebesgue.Basic
/-!
# C15-C18: synthetic data
-/

namespace TD
open Spec Ex

/-! ### Arguments -/

section
variable {R : Rounding}

theorem trust_check (t : FP R) :
    (isNan t || Arith.lt t (Arith.ofNat 0) || Arith.lt (Arith.ofNat 1) t) = false ↔
      ∃ x : ℝ, t = FP.fin x ∧ 0 ≤ x ∧ x ≤ 1 := by
  rw [FP.zero_eq, FP.one_eq]
  rcases t with _ | _ | _ | x
  · refine ⟨fun h => ?_, ?_⟩
    · have : isNan (FP.nan : FP R) = true := rfl
      change (isNan (FP.nan : FP R) || _ || _) = false at h
      rw [this] at h; simp at h
    · rintro ⟨x, h, -⟩; cases h
  · refine ⟨fun h => ?_, ?_⟩
    · have : Arith.lt (FP.fin 1 : FP R) FNum.pinf = true := by
        show FNum.lt (.fin 1) .pinf = true
        simp only [FNum.lt, FNum.toEReal]
        exact decide_eq_true (EReal.coe_lt_top _)
      rw [this] at h; simp at h
    · rintro ⟨x, h, -⟩; cases h
  · refine ⟨fun h => ?_, ?_⟩
    · have : Arith.lt (show FP R from FNum.ninf) (FP.fin 0) = true := by
        show FNum.lt .ninf (.fin 0) = true
        simp only [FNum.lt, FNum.toEReal]
        exact decide_eq_true (EReal.bot_lt_coe _)
      rw [this] at h; simp at h
    · rintro ⟨x, h, -⟩; cases h
  · change (isNan (FP.fin x : FP R) || Arith.lt (FP.fin x : FP R) _ || Arith.lt _ (FP.fin x : FP R)) = false ↔
      ∃ y, (FP.fin x : FP R) = FP.fin y ∧ _
    simp only [FP.isNan_fin, FP.lt_fin, Bool.false_or, Bool.or_eq_false_iff, decide_eq_false_iff_not,
      not_lt, FP.fin_inj, exists_eq_left']

theorem prob_check (t : FP R) :
    (Arith.le t (Arith.ofNat 0) || Arith.lt (Arith.ofNat 1) t) = false ↔
      t = FP.nan ∨ ∃ x : ℝ, t = FP.fin x ∧ 0 < x ∧ x ≤ 1 := by
  rw [FP.zero_eq, FP.one_eq]
  rcases t with _ | _ | _ | x
  · refine ⟨fun _ => Or.inl rfl, fun _ => rfl⟩
  · refine ⟨fun h => ?_, ?_⟩
    · have : Arith.lt (FP.fin 1 : FP R) FNum.pinf = true := by
        show FNum.lt (.fin 1) .pinf = true
        simp only [FNum.lt, FNum.toEReal]
        exact decide_eq_true (EReal.coe_lt_top _)
      rw [this] at h; simp at h
    · rintro (h | ⟨x, h, -⟩) <;> cases h
  · refine ⟨fun h => ?_, ?_⟩
    · have : Arith.lt (show FP R from FNum.ninf) (FP.fin 0) = true := by
        show FNum.lt .ninf (.fin 0) = true
        simp only [FNum.lt, FNum.toEReal]
        exact decide_eq_true (EReal.bot_lt_coe _)
      unfold Arith.le at h
      rw [this] at h; simp at h
    · rintro (h | ⟨x, h, -⟩) <;> cases h
  · change (Arith.le (FP.fin x : FP R) _ || Arith.lt _ (FP.fin x : FP R)) = false ↔
      (FP.fin x : FP R) = FP.nan ∨ ∃ y, (FP.fin x : FP R) = FP.fin y ∧ _
    have hn : ((FP.fin x : FP R) = FP.nan) = False := by
      simp only [eq_iff_iff, iff_false]
      intro h; cases h
    simp only [FP.le_fin, FP.lt_fin, Bool.or_eq_false_iff, decide_eq_false_iff_not,
      not_lt, not_le, FP.fin_inj, exists_eq_left', hn, false_or]

theorem any_check (trust : Vec (FP R)) :
    (trust.any isNan || trust.any (fun t => Arith.lt t (Arith.ofNat 0)) ||
        trust.any (fun t => Arith.lt (Arith.ofNat 1) t)) = false ↔
      ∀ t ∈ trust, ∃ x : ℝ, t = FP.fin x ∧ 0 ≤ x ∧ x ≤ 1 := by
  simp only [← trust_check, Bool.or_eq_false_iff, List.any_eq_false, Bool.not_eq_true]
  constructor
  · rintro ⟨⟨h1, h2⟩, h3⟩ t ht
    exact ⟨⟨h1 t ht, h2 t ht⟩, h3 t ht⟩
  · intro h
    exact ⟨⟨fun t ht => (h t ht).1.1, fun t ht => (h t ht).1.2⟩, fun t ht => (h t ht).2⟩

theorem finite_list (trust : Vec (FP R)) (h : ∀ t ∈ trust, ∃ x : ℝ, t = FP.fin x ∧ 0 ≤ x ∧ x ≤ 1) :
    ∃ xs : List ℝ, trust = xs.map FP.fin ∧ ∀ x ∈ xs, 0 ≤ x ∧ x ≤ 1 := by
  induction trust with
  | nil => exact ⟨[], rfl, by simp⟩
  | cons t trust ih =>
    obtain ⟨xs, rfl, h2⟩ := ih fun t ht => h t (by simp [ht])
    obtain ⟨x, rfl, hx⟩ := h t (by simp)
    refine ⟨x :: xs, rfl, ?_⟩
    intro y hy
    rcases List.mem_cons.1 hy with rfl | hy
    · exact hx
    · exact h2 y hy

theorem ofPairs_enum (tvs : List Nat) : Dict.ofPairs (enum tvs) = enum tvs :=
  ofPairs_nodup (nodup_enum_fst tvs)

theorem get_enum (tvs : List Nat) (j v : Nat) :
    Dict.get? (Dict.ofPairs (enum tvs)) j = some v ↔ tvs[j]? = some v := by
  rw [ofPairs_enum]
  have : Dict.get? (enum tvs) j = some v ↔ (j, v) ∈ enum tvs := lookup_eq_some_iff (nodup_enum_fst tvs)
  rw [this, mem_enum']

/-- The matrix computed for accepted arguments. -/
theorem make_sat (g : Rng (FP R)) (hg : UnitDraws g) (a : SynthArgs (FP R)) (trust : List ℝ)
    (hta : a.trust = some (trust.map FP.fin)) (hne : trust ≠ []) (ht : ∀ t ∈ trust, 0 ≤ t ∧ t ≤ 1)
    (hS : ∀ t ∈ trust, Samples g a.domainSize.toNat t)
    (hp : a.claimProbability = FP.nan ∨ ∃ p : ℝ, a.claimProbability = FP.fin p ∧ 0 < p ∧ p ≤ 1)
    (hd : 2 ≤ a.domainSize) (hm : 1 ≤ a.numVariables) :
    Sat (synthMake g a) fun o =>
      o.trueValues.length = a.numVariables.toNat ∧
      (∀ v ∈ o.trueValues, v < a.domainSize.toNat) ∧
      Good trust.length a.numVariables.toNat (Possible trust o.trueValues a.domainSize.toNat) o.sv ∧
      (∀ j < a.numVariables.toNat, ∃ i, Filled o.sv i j) ∧
      (∀ i < trust.length, ∃ j, Filled o.sv i j) ∧
      (a.claimProbability = FP.fin 1 →
        ∀ i < trust.length, ∀ j < a.numVariables.toNat, Filled o.sv i j) := by
  unfold synthMake
  rw [hta]
  dsimp only
  have c1 : ¬ ((trust.map FP.fin : Vec (FP R)).length = 0) := by
    have := List.length_pos_iff.2 hne
    simp; exact hne
  have c2 := (any_check (trust.map FP.fin : Vec (FP R))).2 (by
    intro t h
    obtain ⟨x, hx, rfl⟩ := List.mem_map.1 h
    exact ⟨x, rfl, ht x hx⟩)
  have c3 := (prob_check a.claimProbability).2 hp
  rw [if_neg c1, if_neg (by rw [c2]; simp), if_neg (by rw [c3]; simp), if_neg (by omega),
    if_neg (by omega)]
  refine Sat.bind (randints_sat g a.domainSize (by omega) _) ?_
  rintro tvs ⟨t1, t2⟩
  have t3 : ∀ v ∈ tvs, v < a.domainSize.toNat := by
    intro v hv; have := t2 v hv; omega
  have hdn : 2 ≤ a.domainSize.toNat := by omega
  have tne : tvs ≠ [] := by
    intro h; rw [h] at t1; simp at t1; omega
  have hg0 : Good trust.length tvs.length (Possible trust tvs a.domainSize.toNat)
      (List.replicate (trust.map FP.fin : Vec (FP R)).length (List.replicate a.numVariables.toNat none)) := by
    refine ⟨by simp, ?_, ?_⟩
    · intro row hr
      rw [(List.mem_replicate.1 hr).2, List.length_replicate, t1]
    · rintro i j v ⟨row, h1, h2⟩
      have := (List.mem_replicate.1 (List.mem_of_getElem? h1)).2
      subst this
      have := (List.mem_replicate.1 (List.mem_of_getElem? h2)).2
      cases this
  refine Sat.bind (vars_sat g hg trust tvs _ a.claimProbability hS t3 hne (enum tvs)
    (fun p hp => mem_enum'.1 hp) _ hg0) ?_
  rintro sv1 ⟨v1, -, v3, v4⟩
  refine Sat.bind (rows_sat g hg trust tvs _ hS t3 tne (List.range (trust.map FP.fin : Vec (FP R)).length)
    (by simp) sv1 v1) ?_
  rintro sv2 ⟨w1, w2, w3⟩
  refine Sat.pure ⟨t1, t3, by rw [← t1]; exact w1, ?_, ?_, ?_⟩
  · intro j hj
    obtain ⟨i, hi⟩ := v3 (j, tvs[j]) (mem_enum'.2 (by simp))
    exact ⟨i, w2 _ _ hi⟩
  · intro i hi
    exact w3 i (by simpa using hi)
  · intro hp1 i hi j hj
    exact w2 _ _ (v4 hp1 (j, tvs[j]) (mem_enum'.2 (by simp)) i hi)

/-- The object computed for accepted arguments. -/
theorem new_sat (g : Rng (FP R)) (hg : UnitDraws g) (a : SynthArgs (FP R)) (trust : List ℝ)
    (hta : a.trust = some (trust.map FP.fin)) (hne : trust ≠ []) (ht : ∀ t ∈ trust, 0 ≤ t ∧ t ≤ 1)
    (hS : ∀ t ∈ trust, Samples g a.domainSize.toNat t)
    (hp : a.claimProbability = FP.nan ∨ ∃ p : ℝ, a.claimProbability = FP.fin p ∧ 0 < p ∧ p ≤ 1)
    (hd : 2 ≤ a.domainSize) (hm : 1 ≤ a.numVariables) :
    Sat (synthNew g a) fun s =>
      SynthShape trust a.numVariables.toNat a.domainSize.toNat s ∧
      (∃ tvs : List Nat, s.values = enum tvs ∧ tvs.length = a.numVariables.toNat) ∧
      (a.claimProbability = FP.fin 1 →
        ∀ i < trust.length, ∀ j < a.numVariables.toNat, Filled s.data.sv i j) := by
  unfold synthNew
  refine Sat.bind (make_sat g hg a trust hta hne ht hS hp hd hm) ?_
  rintro ⟨sv, tvs⟩ ⟨h1, h2, h3, h4, h5, h6⟩
  dsimp only at h1 h2 h3 h4 h5 h6 ⊢
  obtain ⟨md, l, m1, m2, -⟩ := C10_claims_are_cells (α := FP R) (fp_one_ne_zero R) sv false
  rw [m1]
  refine Sat.pure ⟨?_, ⟨tvs, ofPairs_enum tvs, h1⟩, by rw [m2]; exact h6⟩
  constructor
  · rw [m2]; exact h3.rows
  · rw [m2]; exact h3.cols
  · show MatrixDataset.mk' (.two md.sv) = .ok md
    rw [m2]; exact m1
  · rw [m2]; exact h4
  · rw [m2]; exact h5
  · intro j
    simp only [get_enum]
    constructor
    · rintro ⟨v, hv⟩
      rw [← h1]; exact (List.getElem?_eq_some_iff.1 hv).1
    · intro hj
      rw [← h1] at hj
      exact ⟨tvs[j], List.getElem?_eq_getElem hj⟩
  · intro j v hv
    rw [get_enum] at hv
    exact h2 v (List.mem_of_getElem? hv)
  · intro i j v hv
    rw [m2] at hv
    obtain ⟨t, tv, -, -, h, -⟩ := h3.entries i j v hv
    exact h
  · intro i j v hi hv
    rw [m2] at hv
    obtain ⟨t, tv, e1, e2, -, hpos⟩ := h3.entries i j v hv
    rw [hi] at e1
    cases e1
    rw [get_enum, e2]
    unfold claimProb at hpos
    split at hpos
    · rename_i h; rw [h]
    · simp at hpos
  · intro i j v hi hv
    rw [m2] at hv
    obtain ⟨t, tv, e1, e2, -, hpos⟩ := h3.entries i j v hv
    rw [hi] at e1
    cases e1
    rw [Ne, get_enum, e2]
    unfold claimProb at hpos
    split at hpos
    · simp at hpos
    · rename_i h
      intro e; cases e; exact h rfl

/-! ### C15 -/

/-- With a sampler that works. -/
theorem shape_of (g : Rng (FP R)) (hg : UnitDraws g) (a : SynthArgs (FP R)) (ha : AcceptedArgs a)
    (hS : ∀ trust : List ℝ, a.trust = some (trust.map FP.fin) → ∀ t ∈ trust, 0 ≤ t → t ≤ 1 →
      Samples g a.domainSize.toNat t) (k : Nat) :
    ∃ (trust : List ℝ) (s : SupervisedMatrix Nat (FP R)) (k' : Nat),
      a.trust = some (trust.map FP.fin) ∧ synthNew g a k = .ok (s, k') ∧
      SynthShape trust a.numVariables.toNat a.domainSize.toNat s ∧
      (∃ tvs : List Nat, s.values = enum tvs ∧ tvs.length = a.numVariables.toNat) ∧ trust ≠ [] ∧
      (a.claimProbability = FP.fin 1 →
        ∀ i < trust.length, ∀ j < a.numVariables.toNat, Filled s.data.sv i j) := by
  obtain ⟨⟨tr, h1, h2, h3⟩, hp, hd, hm⟩ := ha
  obtain ⟨trust, rfl, h4⟩ := finite_list tr h3
  have hne : trust ≠ [] := by rintro rfl; exact h2 rfl
  obtain ⟨s, k', e, q1, q3, q2⟩ := new_sat g hg a trust h1 hne h4
    (fun t ht => hS trust h1 t ht (h4 t ht).1 (h4 t ht).2) hp hd hm k
  exact ⟨trust, s, k', h1, e, q1, q3, hne, q2⟩

/-- **C15.** For accepted arguments and every outcome of the random generator (draws
in `[0, 1)`, started anywhere), the constructor succeeds and its result has the shape
described by `SynthShape`; with claim probability 1 every cell is filled. -/
theorem C15_shape (g : Rng Ex) (hg : UnitDraws g) (a : SynthArgs Ex) (ha : AcceptedArgs a) (k : Nat) :
    ∃ (trust : List ℝ) (s : SupervisedMatrix Nat Ex) (k' : Nat),
      a.trust = some (trust.map fin) ∧ synthNew g a k = .ok (s, k') ∧
      SynthShape trust a.numVariables.toNat a.domainSize.toNat s ∧
      (a.claimProbability = fin 1 →
        ∀ i < trust.length, ∀ j < a.numVariables.toNat, Filled s.data.sv i j) := by
  obtain ⟨trust, s, k', h1, h2, h3, -, -, h4⟩ := shape_of g hg a ha
    (fun _ _ t _ h0 h1 => generateClaim_sat g hg t h0 h1 _ (by have := ha.2.2.1; omega)) k
  exact ⟨trust, s, k', h1, h2, h3, h4⟩

/-! ### C16 -/

/-- With a sampler that works for accepted arguments. -/
theorem validation_of (g : Rng (FP R)) (hg : UnitDraws g) (a : SynthArgs (FP R))
    (hS : AcceptedArgs a → ∀ trust : List ℝ, a.trust = some (trust.map FP.fin) → ∀ t ∈ trust, 0 ≤ t → t ≤ 1 →
      Samples g a.domainSize.toNat t) (k : Nat) :
    ((∃ e, synthNew g a k = .error e) ↔ ¬ AcceptedArgs a) ∧
    (∀ e, synthNew g a k = .error e → e = .valueError) := by
  by_cases ha : AcceptedArgs a
  · obtain ⟨_, s, k', -, h, -⟩ := shape_of g hg a ha (hS ha) k
    rw [h]; simp [ha]
  · suffices h : synthNew g a k = .error .valueError by rw [h]; simp [ha]
    suffices h : synthMake g a k = .error .valueError by
      show Rand.bind _ _ k = _
      unfold Rand.bind
      rw [h]
    unfold synthMake
    cases htr : a.trust with
    | none => rfl
    | some trust =>
      dsimp only
      split
      · rfl
      rename_i c1
      split
      · rfl
      rename_i c2
      split
      · rfl
      rename_i c3
      split
      · rfl
      rename_i c4
      split
      · rfl
      rename_i c5
      have d2 := (any_check trust).1 (by simpa using c2)
      have d3 := (prob_check a.claimProbability).1 (by simpa using c3)
      have hz : a.numVariables = 0 := by
        by_contra hz
        exact ha ⟨⟨trust, htr, by rintro rfl; exact c1 rfl, d2⟩, d3, by omega, by omega⟩
      have hz' : a.numVariables.toNat = 0 := by omega
      rw [hz']
      cases trust with
      | nil => exact absurd rfl c1
      | cons t trust =>
        show Rand.bind (fun k => .ok ([], k)) _ k = _
        unfold Rand.bind
        dsimp only
        show Rand.bind (fun k => .ok (_, k)) _ k = _
        unfold Rand.bind
        dsimp only
        have hr : ∀ k, synthRows g (t :: trust) [] a.domainSize.toNat (List.range (t :: trust).length)
            (List.replicate (t :: trust).length (List.replicate 0 none)) k = .error .valueError := by
          intro k
          rw [List.length_cons, List.range_succ_eq_map]
          unfold synthRows
          simp only [List.replicate_succ, List.replicate_zero, List.getD_cons_zero, List.all_nil, if_true]
          rfl
        show Rand.bind _ _ k = _
        unfold Rand.bind
        rw [hr]

/-- **C16.** The constructor raises iff the arguments are not accepted, always
`ValueError`, whatever the random generator delivers. -/
theorem C16_validation (g : Rng Ex) (hg : UnitDraws g) (a : SynthArgs Ex) (k : Nat) :
    ((∃ e, synthNew g a k = .error e) ↔ ¬ AcceptedArgs a) ∧
    (∀ e, synthNew g a k = .error e → e = .valueError) := by
  exact validation_of g hg a (fun ha _ _ t _ h0 h1 =>
    generateClaim_sat g hg t h0 h1 _ (by have := ha.2.2.1; omega)) k

/-! ### C17 -/

/-- **C17.** For trust in `[0, 1]`, a domain of at least two values and a true value
in it, the weights given to the sampler form a probability distribution: the true
value has weight `trust`, every other value `(1 - trust) / (domain - 1)`. -/
theorem C17_weights (t : ℝ) (h0 : 0 ≤ t) (h1 : t ≤ 1) (tv d : Nat) (hd : 2 ≤ d) (htv : tv < d) :
    ∃ w : List ℝ, claimWeights (fin t) tv d = w.map fin ∧ w.length = d ∧ w.sum = 1 ∧
      (∀ x ∈ w, 0 ≤ x ∧ x ≤ 1) ∧
      (∀ v < d, w[v]? = some (if v = tv then t else (1 - t) / ((d : ℝ) - 1))) := by
  refine ⟨weightsR t tv d, claimWeights_fin t tv d hd, by simp [weightsR], weightsR_sum t tv d hd htv,
    ?_, ?_⟩
  · intro x hx
    refine ⟨weightsR_nonneg t tv d hd h0 h1 x hx, ?_⟩
    rw [← weightsR_sum t tv d hd htv]
    exact List.single_le_sum (weightsR_nonneg t tv d hd h0 h1) x hx
  · intro v hv
    rw [weightsR_get t tv d v htv, if_pos hv]; rfl

/-- **C17.** The claim drawn is in the domain and has positive weight, and sampling
never fails. -/
theorem C17_draw (g : Rng Ex) (hg : UnitDraws g) (t : ℝ) (h0 : 0 ≤ t) (h1 : t ≤ 1)
    (tv d : Nat) (hd : 2 ≤ d) (htv : tv < d) (k : Nat) :
    ∃ v k', generateClaim g (fin t) tv d k = .ok (v, k') ∧ v < d ∧ 0 < claimProb t tv d v :=
  generateClaim_sat g hg t h0 h1 d hd tv htv k

theorem take_weights (t : ℝ) (tv d v : Nat) (htv : tv < d) (hv : v ≤ d) :
    ((weightsR t tv d).take v).sum = ∑ i ∈ Finset.range v, claimProb t tv d i := by
  induction v with
  | zero => simp
  | succ v ih =>
    rw [List.take_add_one, List.sum_append, ih (by omega), Finset.sum_range_succ,
      weightsR_get t tv d v htv, if_pos (by omega)]
    simp

/-- **C17.** Without rounding: the value `v` is drawn exactly if the uniform number `u` is in the
`v`-th of consecutive intervals as long as the probabilities of the values. -/
theorem C17_intervals (g : Rng Ex) (t : ℝ) (h0 : 0 ≤ t) (h1 : t ≤ 1) (tv d : Nat) (hd : 2 ≤ d) (htv : tv < d)
    (k : Nat) (u : ℝ) (hu : g.unit k = fin u) (hu0 : 0 ≤ u) (v : Nat) (hv : v < d) :
    generateClaim g (fin t) tv d k = .ok (v, k + 1) ↔
      ∑ i ∈ Finset.range v, claimProb t tv d i ≤ u ∧ u < ∑ i ∈ Finset.range (v + 1), claimProb t tv d i := by
  have hw : claimWeights (fin t) tv d = (weightsR t tv d).map FP.fin := claimWeights_fin t tv d hd
  have hn := weightsR_nonneg t tv d hd h0 h1
  have hK : kahanSum ((weightsR t tv d).map FP.fin : List Ex) = FP.fin 1 := by
    have := kahan_fin (weightsR t tv d)
    rw [weightsR_sum t tv d hd htv] at this
    exact this
  have hs : ((weightsR t tv d).map FNum.fin).foldl (FNum.add .exact) (.fin 0) = .fin 1 := by
    have := foldl_sum (weightsR t tv d) 0
    rw [weightsR_sum t tv d hd htv, zero_add] at this
    exact this
  have e : generateClaim g (fin t) tv d k =
      .ok (((rcum 0 (weightsR t tv d)).takeWhile fun c => decide (c ≤ u)).length, k + 1) := by
    unfold generateClaim
    rw [hw, choice_eq g _ hn 1 1 hK exact_tol one_pos hs k, hu]
    congr 2
    have hc : cumsum (FP.fin 0 : Ex) ((weightsR t tv d).map FP.fin) = (rcum 0 (weightsR t tv d)).map fin :=
      cumsum_fin 0 _
    have hdiv : ((rcum 0 (weightsR t tv d)).map fin).map (· /. (FP.fin 1 : Ex)) =
        (rcum 0 (weightsR t tv d)).map fin := by
      rw [List.map_map]
      apply List.map_congr_left
      intro c _
      show FNum.div .exact (.fin c) (.fin 1) = _
      simp [FNum.div, Rounding.exact]; rfl
    rw [hc, hdiv]
    unfold searchRight
    rw [List.takeWhile_map, List.length_map]
    congr 2
    funext c
    exact fin_le c u
  have hlen : v < (weightsR t tv d).length := by simpa [weightsR] using hv
  rw [e]
  simp only [Except.ok.injEq, Prod.mk.injEq, and_true]
  rw [rcum_index 0 u _ hn hu0 v hlen, take_weights t tv d v htv (by omega), take_weights t tv d (v + 1) htv (by omega)]
  simp

/-- **C17.** Without rounding, and with a uniformly distributed random number in `[0, 1)`: the true value
is claimed with probability `trust`, every other value of the domain with probability
`(1 - trust) / (domain - 1)`. -/
theorem C17_probability (t : ℝ) (h0 : 0 ≤ t) (h1 : t ≤ 1) (tv d : Nat) (hd : 2 ≤ d) (htv : tv < d)
    (k : Nat) (g : ℝ → Rng Ex) (hg : ∀ u, (g u).unit k = fin u) (v : Nat) (hv : v < d) :
    MeasureTheory.volume {u | u ∈ Set.Ico (0 : ℝ) 1 ∧ generateClaim (g u) (fin t) tv d k = .ok (v, k + 1)} =
      ENNReal.ofReal (if v = tv then t else (1 - t) / ((d : ℝ) - 1)) := by
  have hn : ∀ i, 0 ≤ claimProb t tv d i := by
    intro i
    have : (2 : ℝ) ≤ d := by exact_mod_cast hd
    unfold claimProb
    split
    · exact h0
    · exact div_nonneg (by linarith) (by linarith)
  have hle : ∑ i ∈ Finset.range (v + 1), claimProb t tv d i ≤ 1 := by
    rw [← weightsR_sum t tv d hd htv]
    have e : (weightsR t tv d).sum = ∑ i ∈ Finset.range d, claimProb t tv d i := by
      rw [← take_weights t tv d d htv le_rfl, List.take_of_length_le (by simp [weightsR])]
    rw [e]
    exact Finset.sum_le_sum_of_subset_of_nonneg (Finset.range_mono (by omega)) fun i _ _ => hn i
  have hset : {u | u ∈ Set.Ico (0 : ℝ) 1 ∧ generateClaim (g u) (fin t) tv d k = .ok (v, k + 1)} =
      Set.Ico (∑ i ∈ Finset.range v, claimProb t tv d i) (∑ i ∈ Finset.range (v + 1), claimProb t tv d i) := by
    ext u
    constructor
    · rintro ⟨⟨u0, u1⟩, h⟩
      exact (C17_intervals (g u) t h0 h1 tv d hd htv k u (hg u) u0 v hv).1 h
    · rintro ⟨a, b⟩
      have u0 : 0 ≤ u := le_trans (Finset.sum_nonneg fun i _ => hn i) a
      exact ⟨⟨u0, lt_of_lt_of_le b hle⟩, (C17_intervals (g u) t h0 h1 tv d hd htv k u (hg u) u0 v hv).2 ⟨a, b⟩⟩
  rw [hset, Real.volume_Ico, Finset.sum_range_succ, add_sub_cancel_left]
  rfl

/-! ### C18 -/

theorem foldl_set (tvs : List Nat) :
    (enum tvs).foldl (fun (row : List (Option Nat)) p => row.set p.1 (some p.2))
      (List.replicate tvs.length none) = tvs.map some := by
  have key : ∀ (pre rest : List Nat),
      (rest.zipIdx pre.length |>.map fun p => (p.2, p.1)).foldl
        (fun (row : List (Option Nat)) p => row.set p.1 (some p.2))
        (pre.map some ++ List.replicate rest.length none) = (pre ++ rest).map some := by
    intro pre rest
    induction rest generalizing pre with
    | nil => simp
    | cons x rest ih =>
      have := ih (pre ++ [x])
      simp only [List.length_append, List.length_cons, List.length_nil] at this
      simp only [List.zipIdx_cons, List.map_cons, List.foldl_cons, List.length_cons,
        List.replicate_succ]
      rw [List.set_append_right _ _ (by simp)]
      simp only [List.length_map, Nat.sub_self, List.set_cons_zero]
      rw [show pre ++ x :: rest = pre ++ [x] ++ rest by simp, ← this]
      simp
  have := key [] tvs
  simpa [enum] using this

/-- With a sampler that works. -/
theorem round_trip_of (g : Rng (FP R)) (hg : UnitDraws g) (a : SynthArgs (FP R)) (ha : AcceptedArgs a)
    (hS : ∀ trust : List ℝ, a.trust = some (trust.map FP.fin) → ∀ t ∈ trust, 0 ≤ t → t ≤ 1 →
      Samples g a.domainSize.toNat t)
    (k : Nat) (str : Nat → Text) (parse : Text → Parsed Nat) (hrt : RoundTrips str parse) :
    ∃ (s : SupervisedMatrix Nat (FP R)) (k' : Nat) (s' : SupervisedMatrix Nat (FP R)),
      synthNew g a k = .ok (s, k') ∧
      SupervisedMatrix.fromCsv parse (synthToCsv str s) = .ok s' ∧
      s'.data = s.data ∧ (∀ j, s'.values.get? j = s.values.get? j) := by
  obtain ⟨trust, s, k', h1, e, q1, ⟨tvs, q2, q3⟩, hne, -⟩ := shape_of g hg a ha hS k
  have hm := ha.2.2.2
  have htext : synthToCsv str s = gridToCsv str (tvs.map some :: s.data.sv) := by
    unfold synthToCsv
    have : (s.data.sv.headD []).length = tvs.length := by
      cases hs : s.data.sv with
      | nil =>
        have := q1.rows
        rw [hs] at this
        exact absurd (List.length_eq_zero_iff.1 this.symm) hne
      | cons r rs =>
        have := q1.cols r (by rw [hs]; simp)
        rw [q3]; exact this
    dsimp only
    rw [this, q2, foldl_set]
  have hcsv : csvToMasked parse (synthToCsv str s) = .ok (tvs.map some :: s.data.sv) := by
    rw [htext]
    apply csv_round_trip str parse hrt a.numVariables.toNat _ _ (by simp)
    · by_cases h : 2 ≤ a.numVariables.toNat
      · exact Or.inl h
      · right
        have hone : a.numVariables.toNat = 1 := by omega
        refine ⟨hone, ?_, ?_⟩
        · intro h
          simp only [List.head?_cons, Option.some.injEq] at h
          cases tvs with
          | nil => cases h
          | cons x xs => cases h
        · intro h
          have hsv : s.data.sv ≠ [] := by
            intro h0
            have := q1.rows
            rw [h0] at this
            exact absurd (List.length_eq_zero_iff.1 this.symm) hne
          have hlast : s.data.sv[trust.length - 1]? = some [none] := by
            rw [← q1.rows, ← List.getLast?_eq_getElem?]
            rw [List.getLast?_cons] at h
            cases hl : s.data.sv.getLast? with
            | none => exact absurd (List.getLast?_eq_none_iff.1 hl) hsv
            | some r => rw [hl] at h; simpa using h
          have hpos := List.length_pos_iff.2 hne
          obtain ⟨j, v, row, r1, r2⟩ := q1.every_source (trust.length - 1) (by omega)
          rw [hlast] at r1
          cases r1
          cases j with
          | zero => simp at r2
          | succ j => simp at r2
    · intro row hr
      rcases List.mem_cons.1 hr with rfl | hr
      · simp [q3]
      · exact q1.cols row hr
  obtain ⟨s', e', f1, f2, f3⟩ := C13_first_row_is_truth (α := FP R) (fp_one_ne_zero R) parse _ _ _ hcsv
  refine ⟨s, k', s', e, e', ?_, ?_⟩
  · rw [q1.data] at f1
    exact (Except.ok.inj f1).symm
  · intro j
    have : ∀ v, s'.values.get? j = some v ↔ s.values.get? j = some v := by
      intro v
      rw [f3, q2, ← ofPairs_enum, get_enum]
      simp [List.getElem?_map, Option.map_eq_some_iff]
    cases h : s.values.get? j with
    | some v => exact (this v).2 h
    | none =>
      cases h' : s'.values.get? j with
      | none => rfl
      | some v => rw [(this v).1 h'] at h; cases h

/-- **C18.** For accepted arguments and every outcome of the random generator: writing
the dataset as CSV and reading it back gives the same claims and the same true values. -/
theorem C18_round_trip (g : Rng Ex) (hg : UnitDraws g) (a : SynthArgs Ex) (ha : AcceptedArgs a)
    (k : Nat) (str : Nat → Text) (parse : Text → Parsed Nat) (hrt : RoundTrips str parse) :
    ∃ (s : SupervisedMatrix Nat Ex) (k' : Nat) (s' : SupervisedMatrix Nat Ex),
      synthNew g a k = .ok (s, k') ∧
      SupervisedMatrix.fromCsv parse (synthToCsv str s) = .ok s' ∧
      s'.data = s.data ∧ (∀ j, s'.values.get? j = s.values.get? j) := by
  exact round_trip_of g hg a ha
    (fun _ _ t _ h0 h1 => generateClaim_sat g hg t h0 h1 _ (by have := ha.2.2.1; omega)) k str parse hrt

end

/-! ### Instances -/

/-- Draws of 0: always the lowest. -/
noncomputable def Toy.rng : Rng Ex := ⟨fun _ => fin 0, fun k => k⟩

theorem Toy.rng_unit : UnitDraws Toy.rng := fun _ => ⟨0, rfl, le_refl _, by norm_num⟩

/-- Two sources, three variables, four values. -/
noncomputable def Toy.args : SynthArgs Ex :=
  { trust := some [fin 1, fin (1/2)], numVariables := 3, claimProbability := fin (1/2), domainSize := 4 }

theorem Toy.args_accepted : AcceptedArgs Toy.args := by
  refine ⟨⟨_, rfl, by simp, ?_⟩, Or.inr ⟨1/2, rfl, by norm_num, by norm_num⟩, by decide, by decide⟩
  intro t ht
  rcases List.mem_cons.1 ht with rfl | ht
  · exact ⟨1, rfl, by norm_num, by norm_num⟩
  · rw [List.mem_singleton.1 ht]
    exact ⟨1/2, rfl, by norm_num, by norm_num⟩

example := C15_shape Toy.rng Toy.rng_unit Toy.args Toy.args_accepted 0
example := C16_validation Toy.rng Toy.rng_unit { Toy.args with domainSize := 1 } 0
example := C17_probability (1/2) (by norm_num) (by norm_num) 1 4 (by norm_num) (by norm_num) 0
  (fun u => ⟨fun _ => fin u, fun k => k⟩) (fun _ => rfl) 3 (by norm_num)
example := C17_weights (1/2) (by norm_num) (by norm_num) 1 4 (by norm_num) (by norm_num)

/-- Unary numerals. -/
def Toy.unary (n : Nat) : Text := List.replicate (n + 1) '1'
/-- Reads a unary numeral. -/
def Toy.parseUnary (t : Text) : Parsed Nat := .num (t.length - 1)

theorem Toy.unary_roundTrips : RoundTrips Toy.unary Toy.parseUnary where
  parse_str := by intro v; simp [Toy.unary, Toy.parseUnary]
  nonempty := by intro v; simp [Toy.unary, List.replicate_succ]
  clean := by
    intro v c hc
    rw [(List.mem_replicate.1 hc).2]
    decide

example := C18_round_trip Toy.rng Toy.rng_unit Toy.args Toy.args_accepted 0 _ _ Toy.unary_roundTrips

end TD
