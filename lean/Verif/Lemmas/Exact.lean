import Verif.Lemmas.Rel
import Verif.Spec.Scores
import Verif.Model.Float
import Verif.Lemmas.SumOrder

/-! Exact arithmetic on finite numbers. -/

namespace TD
open Spec
attribute [-instance] instBEqProd

namespace Ex

theorem fin_inj {x y : ℝ} : fin x = fin y ↔ x = y := by
  constructor
  · intro h; injection h
  · rintro rfl; rfl

@[simp] theorem ofNat_eq (n : Nat) : (Arith.ofNat n : Ex) = fin n := rfl
@[simp] theorem lit_eq (a : Int) (b : Nat) : (Arith.lit a b : Ex) = fin ((a : ℝ) / (b : ℝ)) := rfl
@[simp] theorem add_eq (x y : ℝ) : (fin x +. fin y) = fin (x + y) := rfl
@[simp] theorem sub_eq (x y : ℝ) : (fin x -. fin y) = fin (x - y) := by
  show FNum.add .exact (FNum.fin x) (FNum.neg (FNum.fin y)) = _
  simp [FNum.neg, FNum.add, Rounding.exact, fin, sub_eq_add_neg]
@[simp] theorem mul_eq (x y : ℝ) : (fin x *. fin y) = fin (x * y) := rfl
theorem div_eq (x : ℝ) {y : ℝ} (h : y ≠ 0) : (fin x /. fin y) = fin (x / y) := by
  show FNum.div .exact (FNum.fin x) (FNum.fin y) = _
  simp [FNum.div, h, Rounding.exact, fin]
theorem zero_div_zero : (fin 0 /. fin 0) = nan := by
  show FNum.div .exact (FNum.fin 0) (FNum.fin 0) = _
  simp [FNum.div, nan]
@[simp] theorem neg_eq (x : ℝ) : Arith.neg (fin x) = fin (-x) := rfl
@[simp] theorem abs_eq (x : ℝ) : Arith.abs (fin x) = fin |x| := rfl
theorem log_eq {x : ℝ} (h : 0 < x) : Arith.log (fin x) = fin (Real.log x) := by
  show FNum.log .exact (FNum.fin x) = _
  simp [FNum.log, not_lt.2 h.le, h.ne', Rounding.exact, fin]
@[simp] theorem exp_eq (x : ℝ) : Arith.exp (fin x) = fin (Real.exp x) := rfl
theorem sqrt_eq {x : ℝ} (h : 0 ≤ x) : Arith.sqrt (fin x) = fin (Real.sqrt x) := by
  show FNum.sqrt .exact (FNum.fin x) = _
  simp [FNum.sqrt, not_lt.2 h, Rounding.exact, fin]
theorem pow_eq {x : ℝ} (h : 0 < x) (y : ℝ) : Arith.pow (fin x) (fin y) = fin (x ^ y) := by
  show FNum.powFin .exact x y = _
  simp [FNum.powFin, h, Rounding.exact, fin]
@[simp] theorem lt_eq (x y : ℝ) : Arith.lt (fin x) (fin y) = decide (x < y) := by
  show FNum.lt (FNum.fin x) (FNum.fin y) = _
  simp [FNum.lt, FNum.toEReal, EReal.coe_lt_coe_iff]
@[simp] theorem eq_eq (x y : ℝ) : Arith.eq (fin x) (fin y) = decide (x = y) := by
  show FNum.eq (FNum.fin x) (FNum.fin y) = _
  simp [FNum.eq, FNum.toEReal, EReal.coe_eq_coe_iff]
@[simp] theorem isNan_eq (x : ℝ) : isNan (fin x) = false := by simp [isNan]
@[simp] theorem isNan_nan : isNan nan = true := rfl

theorem foldl_add (L : List ℝ) (a : ℝ) :
    (L.map fin).foldl Arith.add (fin a) = fin (a + L.sum) := by
  induction L generalizing a with
  | nil => simp
  | cons x L ih => simp [ih, add_assoc]

@[simp] theorem sum_eq (L : List ℝ) : Arith.sum (L.map fin) = fin L.sum := by
  obtain ⟨l, hl, h⟩ := sum_order_fp (R := .exact) L fin (fun l x => x = fin l.sum) (fun _ => rfl)
    (fun a _ => by
      have := add_eq 0 a
      rw [show (fin 0 +. fin a : Ex) = (FP.fin 0 +. fin a : Ex) from rfl] at this
      rw [this]; simp)
    (fun l m x y _ hx hy => by rw [hx, hy, add_eq, List.sum_append])
  rw [h, hl.sum_eq]

@[simp] theorem dot_eq {A : Type} (as : List A) (f g : A → ℝ) :
    Arith.dot (as.map fun a => fin (f a)) (as.map fun a => fin (g a)) =
      fin (as.map fun a => f a * g a).sum := by
  obtain ⟨l, hl, h⟩ := dot_order_fp (R := .exact) as (fun a => fin (f a)) (fun a => fin (g a))
    (fun l x => x = fin (l.map fun a => f a * g a).sum) (fun _ => rfl) (fun a _ => by rw [mul_eq]; simp)
    (fun a l y _ hy => by
      rw [hy]
      have : FNum.fma .exact (fin (f a)) (fin (g a)) (fin (l.map fun a => f a * g a).sum) =
          (fin (f a) *. fin (g a) +. fin (l.map fun a => f a * g a).sum : Ex) := rfl
      rw [this, mul_eq, add_eq]; simp)
    (fun l m x y _ hx hy => by rw [hx, hy, add_eq, List.map_append, List.sum_append])
  rw [h, (hl.map _).sum_eq]

/-- A row of a matrix-vector product with finite entries. -/
theorem rowDot_eq {B : Type} [DecidableEq B] {bs : List B} (hb : bs.Nodup) {g : B → Option Ex}
    {h : B → ℝ} (P : B → Prop) [DecidablePred P]
    (hg : ∀ b ∈ bs, g b = if P b then some (fin (h b)) else none) (F : B → ℝ) :
    rowDot bs g (fun b => fin (F b)) = fin (∑ b ∈ bs.toFinset.filter P, h b * F b) := by
  have key : ∀ (L : List B), (∀ b ∈ L, b ∈ bs) → ∀ a : ℝ,
      L.foldl (rowStep g fun b => fin (F b)) (fin a) =
      fin (a + ((L.filter P).map fun b => h b * F b).sum) := by
    intro L
    induction L with
    | nil => intro _ a; simp
    | cons b L ih =>
      intro hL a
      have hgb := hg b (hL b (by simp))
      have ih' := ih (fun c hc => hL c (by simp [hc]))
      by_cases hp : P b
      · rw [if_pos hp] at hgb
        simp only [List.foldl_cons, rowStep, hgb, mul_eq, add_eq, ih', List.filter_cons, hp, decide_true,
          ↓reduceIte, List.map_cons, List.sum_cons]
        rw [add_assoc]
      · rw [if_neg hp] at hgb
        simp [List.foldl_cons, rowStep, hgb, ih', hp]
  unfold rowDot
  have := key bs (fun _ h => h) 0
  rw [zero_add] at this
  have h0 : (Arith.ofNat 0 : Ex) = fin 0 := by simp
  rw [h0]
  refine this.trans ?_
  congr 1
  rw [← List.sum_toFinset _ (hb.filter _), List.toFinset_filter]
  congr 1
  simp

theorem maxFold {A : Type} (as : List A) (f : A → ℝ) (m : ℝ) :
    ∃ r, (as.map fun a => fin (f a)).foldl (fun m y => if Arith.lt m y then y else m) (fin m) =
      fin r ∧ m ≤ r ∧ (∀ a ∈ as, f a ≤ r) ∧ (r = m ∨ ∃ a ∈ as, f a = r) := by
  induction as generalizing m with
  | nil => exact ⟨m, rfl, le_rfl, by simp, .inl rfl⟩
  | cons a as ih =>
    simp only [List.map_cons, List.foldl_cons, lt_eq]
    by_cases h : m < f a
    · obtain ⟨r, h1, h2, h3, h4⟩ := ih (f a)
      refine ⟨r, by simpa [h] using h1, by linarith, ?_, ?_⟩
      · intro b hb
        rcases List.mem_cons.1 hb with rfl | hb
        · exact h2
        · exact h3 b hb
      · rcases h4 with h4 | ⟨b, hb, h4⟩
        · exact .inr ⟨a, by simp, h4.symm⟩
        · exact .inr ⟨b, by simp [hb], h4⟩
    · obtain ⟨r, h1, h2, h3, h4⟩ := ih m
      refine ⟨r, by simpa [h] using h1, h2, ?_, ?_⟩
      · intro b hb
        rcases List.mem_cons.1 hb with rfl | hb
        · linarith
        · exact h3 b hb
      · rcases h4 with h4 | ⟨b, hb, h4⟩
        · exact .inl h4
        · exact .inr ⟨b, by simp [hb], h4⟩

theorem top_eq_of {A : Type} {F : Finset A} {f : A → ℝ} {r : ℝ}
    (h1 : ∀ a ∈ F, f a ≤ r) (h2 : ∃ a ∈ F, f a = r) : top F f = r := by
  obtain ⟨a, ha, e⟩ := h2
  have hne : F.Nonempty := ⟨a, ha⟩
  unfold top
  rw [dif_pos hne]
  apply le_antisymm
  · exact Finset.sup'_le _ _ h1
  · rw [← e]; exact Finset.le_sup' f ha

theorem pyMax_eq {A : Type} [DecidableEq A] {as : List A} (hne : as ≠ []) (f : A → ℝ) :
    pyMax (as.map fun a => fin (f a)) = .ok (fin (top as.toFinset f)) := by
  cases as with
  | nil => exact absurd rfl hne
  | cons a as =>
    obtain ⟨r, h1, h2, h3, h4⟩ := maxFold as f (f a)
    simp only [List.map_cons, pyMax, h1]
    congr 2
    symm
    apply top_eq_of
    · intro b hb
      simp only [List.mem_toFinset, List.mem_cons] at hb
      rcases hb with rfl | hb
      · exact h2
      · exact h3 b hb
    · rcases h4 with h4 | ⟨b, hb, h4⟩
      · exact ⟨a, by simp, h4.symm⟩
      · exact ⟨b, by simp [hb], h4⟩

theorem npMax_eq {A : Type} [DecidableEq A] {as : List A} (hne : as ≠ []) (f : A → ℝ) :
    npMax (as.map fun a => fin (f a)) = .ok (fin (top as.toFinset f)) := by
  rw [← pyMax_eq hne]
  cases as with
  | nil => rfl
  | cons a as =>
    simp only [List.map_cons, npMax, pyMax]
    congr 1
    generalize f a = m
    clear hne a
    induction as generalizing m with
    | nil => rfl
    | cons b as ih =>
      simp only [List.map_cons, List.foldl_cons, isNan_eq, Bool.false_eq_true, ↓reduceIte]
      by_cases h : m < f b
      · simp only [lt_eq, h, decide_true, ↓reduceIte]; exact ih _
      · simp only [lt_eq, h, decide_false, Bool.false_eq_true, ↓reduceIte]; exact ih _

theorem normalise_eq {A : Type} [DecidableEq A] {as : List A} (hne : as ≠ []) (f : A → ℝ)
    (h0 : top as.toFinset f ≠ 0) :
    normalise (as.map fun a => fin (f a)) =
      .ok (as.map fun a => fin (scaled as.toFinset f a)) := by
  unfold normalise
  rw [pyMax_eq hne]
  simp only [bind, Except.bind, pure, Except.pure, List.map_map]
  congr 1
  apply List.map_congr_left
  intro a _
  simp [Function.comp, div_eq _ h0, scaled]

end Ex

/-! ### The dataset -/
section
variable {S V X : Type} [DecidableEq S] [DecidableEq V] [DecidableEq X] (l : List (S × V × X))

theorem sources_toFinset : (sources l).toFinset = allSources l := by
  ext s
  simp only [List.mem_toFinset, mem_sources, allSources, List.mem_map]
  constructor
  · rintro ⟨t, ht, rfl⟩
    obtain ⟨u, hu, e⟩ := (recorded_pair_iff l (s := t.1) (v := t.2.1)).2 ⟨t, ht, rfl, rfl⟩
    exact ⟨u, hu, e.1⟩
  · rintro ⟨t, ht, rfl⟩
    exact ⟨t, recorded_sub l ht, rfl⟩

theorem claims_toFinset : (claims l).toFinset = allClaims l := by
  ext c
  simp only [List.mem_toFinset, mem_claims, allClaims, List.mem_map]

theorem mem_allSources {s : S} : s ∈ allSources l ↔ s ∈ sources l := by
  rw [← sources_toFinset, List.mem_toFinset]
theorem mem_allClaims {c : V × X} : c ∈ allClaims l ↔ c ∈ claims l := by
  rw [← claims_toFinset, List.mem_toFinset]

theorem mem_claimsOf {s : S} {c : V × X} : c ∈ claimsOf l s ↔ (s, c) ∈ recorded l := by
  simp only [claimsOf, Finset.mem_filter, allClaims, List.mem_toFinset, List.mem_map,
    and_iff_right_iff_imp]
  intro h; exact ⟨_, h, rfl⟩
theorem mem_sourcesOf {s : S} {c : V × X} : s ∈ sourcesOf l c ↔ (s, c) ∈ recorded l := by
  simp only [sourcesOf, Finset.mem_filter, allSources, List.mem_toFinset, List.mem_map,
    and_iff_right_iff_imp]
  intro h; exact ⟨_, h, rfl⟩
theorem mem_rivals {c d : V × X} : d ∈ rivals l c ↔ d ∈ claims l ∧ c.1 = d.1 := by
  simp only [rivals, Finset.mem_filter, mem_allClaims]

theorem claimsOf_nonempty {s : S} (h : s ∈ sources l) : (claimsOf l s).Nonempty := by
  rw [← mem_allSources] at h
  simp only [allSources, List.mem_toFinset, List.mem_map] at h
  obtain ⟨t, ht, rfl⟩ := h
  exact ⟨t.2, (mem_claimsOf l).2 ht⟩
theorem sourcesOf_nonempty {c : V × X} (h : c ∈ claims l) : (sourcesOf l c).Nonempty := by
  obtain ⟨t, ht, rfl⟩ := (mem_claims l).1 h
  exact ⟨t.1, (mem_sourcesOf l).2 ht⟩
theorem mem_claims_of_claimsOf {s : S} {c : V × X} (h : c ∈ claimsOf l s) : c ∈ claims l :=
  (mem_claims l).2 ⟨_, (mem_claimsOf l).1 h, rfl⟩
theorem mem_sources_of_sourcesOf {s : S} {c : V × X} (h : s ∈ sourcesOf l c) : s ∈ sources l :=
  (mem_sources l).2 ⟨_, recorded_sub l ((mem_sourcesOf l).1 h), rfl⟩
theorem self_mem_rivals {c : V × X} (h : c ∈ claims l) : c ∈ rivals l c :=
  (mem_rivals l).2 ⟨h, rfl⟩

theorem nClaims_pos {s : S} (h : s ∈ sources l) : 0 < nClaims l s := by
  have := (claimsOf_nonempty l h).card_pos
  simpa [nClaims] using this
theorem nSources_pos {c : V × X} (h : c ∈ claims l) : 0 < nSources l c := by
  have := (sourcesOf_nonempty l h).card_pos
  simpa [nSources] using this

variable (f : Option (V → X → X → Option Ex))
open Ex

theorem scL_eq (s : S) (c : V × X) :
    (scL l s c : Option Ex) = if (s, c) ∈ recorded l then some (fin 1) else none := by
  simp [scL, oneIf]

/-- `sc @ b` -/
theorem sc_mulVec (b : V × X → ℝ) : (matsOf l f).sc.mulVec ((claims l).map fun c => fin (b c)) =
    (sources l).map fun s => fin (sumTrust l b s) := by
  rw [sc_eq_ofRel, Mat.mulVec_ofRel]
  apply List.map_congr_left
  intro s _
  rw [rowDot_eq (nodup_claims l) (fun c => (s, c) ∈ recorded l) (h := fun _ => 1)
    (fun c _ => scL_eq l s c), claims_toFinset]
  simp [sumTrust, claimsOf]
  congr!

/-- `sc.T @ t` -/
theorem scT_mulVec (t : S → ℝ) : (matsOf l f).sc.T.mulVec ((sources l).map fun s => fin (t s)) =
    (claims l).map fun c => fin (sumBelief l t c) := by
  rw [scT_eq_ofRel, Mat.mulVec_ofRel]
  apply List.map_congr_left
  intro c _
  rw [rowDot_eq (nodup_sources l) (fun s => (s, c) ∈ recorded l) (h := fun _ => 1)
    (fun s _ => scL_eq l s c), sources_toFinset]
  simp [sumBelief, sourcesOf]
  congr!

/-- `mut_ex @ b` -/
theorem mutEx_mulVec (b : V × X → ℝ) :
    (matsOf l f).mutEx.mulVec ((claims l).map fun c => fin (b c)) =
    (claims l).map fun c => fin (∑ d ∈ rivals l c, b d) := by
  rw [mutEx_eq_ofRel, Mat.mulVec_ofRel]
  apply List.map_congr_left
  intro c _
  rw [rowDot_eq (nodup_claims l) (fun d => c.1 = d.1) (h := fun _ => 1)
    (fun d _ => by simp [mxL, oneIf]), claims_toFinset]
  simp [rivals]

theorem ones_claims : (ones (matsOf l f).numClaims : Vec Ex) = (claims l).map fun _ => fin 1 := by
  show (ones (claims l).length : Vec Ex) = _
  rw [ones_eq]; simp
theorem ones_sources : (ones (matsOf l f).numSources : Vec Ex) = (sources l).map fun _ => fin 1 := by
  show (ones (sources l).length : Vec Ex) = _
  rw [ones_eq]; simp
theorem zeros_claims : (zeros (matsOf l f).numClaims : Vec Ex) = (claims l).map fun _ => fin 0 := by
  show (zeros (claims l).length : Vec Ex) = _
  rw [zeros_eq]; simp
theorem zeros_sources : (zeros (matsOf l f).numSources : Vec Ex) = (sources l).map fun _ => fin 0 := by
  show (zeros (sources l).length : Vec Ex) = _
  rw [zeros_eq]; simp

theorem claimCounts_ex : claimCounts (matsOf l f) = (sources l).map fun s => fin (nClaims l s) := by
  unfold claimCounts
  rw [ones_claims, sc_mulVec]
  simp [sumTrust, nClaims]

theorem sourceCounts_ex : sourceCounts (matsOf l f) = (claims l).map fun c => fin (nSources l c) := by
  unfold sourceCounts
  rw [ones_sources, scT_mulVec]
  simp [sumBelief, nSources]

end
end TD
