import Verif.Lemmas.Ninths
import Verif.Lemmas.Algos2
import Verif.Props.Timing
/-! One iteration of TruthFinder with rounding, no implications. -/

namespace TD
open Spec Double
attribute [-instance] instBEqProd

section
variable {S V X : Type} [DecidableEq S] [DecidableEq V] [DecidableEq X]
variable {R : Rounding} (l : List (S × V × X))

theorem tfBL_none (rho : FP R) (c : V × X) (s : S) :
    tfBL (α := FP R) l none rho c s = if (s, c) ∈ recorded l then some (FP.fin 1) else none := by
  have h0 : impScL (α := FP R) l none c s = none := by
    unfold impScL
    have : ((claims l).filterMap fun d => (scL l s d : Option (FP R)).bind fun e =>
        (impL (α := FP R) none d c).map fun v => e *. v) = [] := by
      rw [List.filterMap_eq_nil_iff]
      intro d _
      cases (scL l s d : Option (FP R)) with
      | none => rfl
      | some e =>
        simp only [Option.bind_some, impL]
        rfl
    rw [this]; rfl
  unfold tfBL
  rw [scL_fp, h0]
  by_cases h : (s, c) ∈ recorded l
  · simp only [if_pos h, Option.map_none]
    have : Arith.eq (FP.fin 1 : FP R) (Arith.ofNat 0) = false := by
      rw [FP.zero_eq]
      show FNum.eq (.fin 1) (.fin 0) = false
      simp [FNum.eq, FNum.toEReal]
    rw [this]; rfl
  · simp only [if_neg h, Option.map_none]

/-- Log belief of a claim. -/
noncomputable def tfLog (tau : S → FP R) (c : V × X) : FP R :=
  rowDot (α := FP R) (sources l) (fun s => if (s, c) ∈ recorded l then some (FP.fin 1) else none) tau

/-- Belief of a claim from its log belief. -/
noncomputable def tfSig (gamma x : FP R) : FP R :=
  Arith.ofNat 1 /. (Arith.ofNat 1 +. Arith.exp (Arith.neg gamma *. x))

/-- Tau of a trust score. -/
noncomputable def tfTau (t : FP R) : FP R := Arith.neg (Arith.log (Arith.ofNat 1 -. t))

/-- Weight of a source's claims. -/
noncomputable def tfWeight (s : S) : FP R :=
  Arith.ofNat 1 /. rowDot (α := FP R) (claims l) (scL l s) fun _ => Arith.ofNat 1

/-- Trust of a source from the beliefs. -/
noncomputable def tfTrust (B : V × X → FP R) (s : S) : FP R :=
  rowDot (α := FP R) (claims l) (fun c => if (s, c) ∈ recorded l then some (FP.fin 1 *. tfWeight l s) else none) B

theorem tfA_labels (f : Option (V → X → X → Option (FP R))) (B : V × X → FP R) :
    (tfA (α := FP R) (matsOf l f)).mulVec ((claims l).map B) = (sources l).map (tfTrust l B) := by
  unfold tfA
  rw [claimCounts_eq, List.map_map, sc_eq_ofRel, Mat.scaleRows_ofRel, Mat.mulVec_ofRel]
  apply List.map_congr_left
  intro s _
  unfold tfTrust
  congr 1
  funext c
  rw [scL_fp]
  split <;> rfl

theorem tfBody_labels (rho gamma : FP R) (T : S → FP R) (b : Vec (FP R)) :
    tfBody (α := FP R) rho gamma (matsOf l none) ((sources l).map T) b =
      if ((sources l).map T).any (fun t => Arith.eq t (Arith.ofNat 1)) then .ok none else
      .ok (some ⟨(sources l).map (tfTrust l fun c => tfSig gamma (tfLog l (fun s => tfTau (T s)) c)),
        (sources l).map T,
        (sources l).map (tfTrust l fun c => tfSig gamma (tfLog l (fun s => tfTau (T s)) c)),
        (claims l).map fun c => tfSig gamma (tfLog l (fun s => tfTau (T s)) c)⟩) := by
  unfold tfBody logTrust
  by_cases h : ((sources l).map T).any (fun t => Arith.eq t (Arith.ofNat 1)) = true
  · rw [if_pos h, if_pos h]
  · rw [if_neg h, if_neg h]
    dsimp only
    have e1 : ((tfB (α := FP R) rho (matsOf l none)).mulVec
        (((sources l).map T).map fun t => Arith.neg (Arith.log (Arith.ofNat 1 -. t)))) =
        (claims l).map (tfLog l fun s => tfTau (T s)) := by
      rw [tfB_eq, List.map_map, Mat.mulVec_ofRel]
      apply List.map_congr_left
      intro c _
      have : (tfBL (α := FP R) l none rho c) = fun s => if (s, c) ∈ recorded l then some (FP.fin 1) else none :=
        funext fun s => tfBL_none l rho c s
      rw [this]; rfl
    rw [e1, List.map_map]
    have e3 := tfA_labels l none fun c => tfSig gamma (tfLog l (fun s => tfTau (T s)) c)
    have e4 : (claims l).map ((fun x => (Arith.ofNat 1 /. (Arith.ofNat 1 +. Arith.exp (Arith.neg gamma *. x)) : FP R)) ∘
        tfLog l fun s => tfTau (T s)) = (claims l).map fun c => tfSig gamma (tfLog l (fun s => tfTau (T s)) c) := rfl
    rw [e4, e3]

/-- Repeated terms. -/
theorem rowDot_iterate {B : Type} {bs : List B} (P : B → Prop) [DecidablePred P] {q : FP R} {F : B → FP R}
    (y : FP R) (hF : ∀ b ∈ bs, P b → q *. F b = y) :
    rowDot (α := FP R) bs (fun b => if P b then some q else none) F =
      (fun a : FP R => a +. y)^[(bs.filter P).length] (FP.fin 0) := by
  unfold rowDot
  rw [FP.zero_eq]
  generalize (FP.fin 0 : FP R) = a
  induction bs generalizing a with
  | nil => rfl
  | cons b bs ih =>
    have ih' := ih (fun c hc => hF c (by simp [hc]))
    rw [List.foldl_cons]
    by_cases h : P b
    · rw [List.filter_cons_of_pos (by simpa using h), List.length_cons, Function.iterate_succ_apply, ih']
      congr 1
      simp only [rowStep, if_pos h]
      rw [hF b (by simp) h]
    · rw [List.filter_cons_of_neg (by simpa using h), ih']
      congr 1
      simp only [rowStep, if_neg h]

theorem add_nan (x : FP R) : x +. (FP.nan : FP R) = FP.nan := by
  have key : ∀ x : FNum, FNum.add R x .nan = .nan := by intro x; cases x <;> rfl
  exact key x

theorem nan_add (x : FP R) : (FP.nan : FP R) +. x = FP.nan := by
  have key : ∀ x : FNum, FNum.add R .nan x = .nan := by intro x; cases x <;> rfl
  exact key x

theorem mul_nan (x : FP R) : x *. (FP.nan : FP R) = FP.nan := by
  have key : ∀ x : FNum, FNum.mul R x .nan = .nan := by intro x; cases x <;> rfl
  exact key x

/-- A NaN term makes the sum NaN. -/
theorem rowDot_nan {B : Type} {bs : List B} {g : B → Option (FP R)} {F : B → FP R} {b : B} (hb : b ∈ bs) {q : FP R}
    (hq : g b = some q) (hF : F b = FP.nan) : rowDot (α := FP R) bs g F = FP.nan := by
  have absorb : ∀ L : List B, L.foldl (rowStep (α := FP R) g F) FP.nan = FP.nan := by
    intro L
    induction L with
    | nil => rfl
    | cons c L ih =>
      rw [List.foldl_cons]
      have : rowStep (α := FP R) g F FP.nan c = FP.nan := by
        unfold rowStep
        cases g c with
        | none => rfl
        | some v => exact nan_add _
      rw [this, ih]
  unfold rowDot
  generalize (Arith.ofNat 0 : FP R) = a
  induction bs generalizing a with
  | nil => cases hb
  | cons c bs ih =>
    rw [List.foldl_cons]
    rcases List.mem_cons.1 hb with rfl | hb
    · have : rowStep (α := FP R) g F a b = FP.nan := by
        simp only [rowStep, hq, hF, mul_nan, add_nan]
      rw [this, absorb]
    · exact ih hb _

theorem tfSig_nan (gamma : FP R) : tfSig gamma (FP.nan : FP R) = FP.nan := by
  unfold tfSig
  rw [mul_nan]
  have h1 : (Arith.exp (FP.nan : FP R) : FP R) = FP.nan := rfl
  have h2 : ∀ x : FP R, x /. (FP.nan : FP R) = FP.nan := by
    have key : ∀ x : FNum, FNum.div R x .nan = .nan := by intro x; cases x <;> rfl
    exact key
  rw [h1, add_nan, h2]

theorem claims_filter (s : S) : ((claims l).filter fun c => (s, c) ∈ recorded l).length = (claimsOf l s).card := by
  rw [← List.toFinset_card_of_nodup ((nodup_claims l).filter _), List.toFinset_filter, claims_toFinset]
  congr 1
  unfold claimsOf
  congr! 2
  simp

theorem sources_filter (c : V × X) :
    ((sources l).filter fun s => (s, c) ∈ recorded l).length = (sourcesOf l c).card := by
  rw [← List.toFinset_card_of_nodup ((nodup_sources l).filter _), List.toFinset_filter, sources_toFinset]
  congr 1
  unfold sourcesOf
  congr! 2
  simp

end

section
variable {S V X : Type} [DecidableEq S] [DecidableEq V] [DecidableEq X] (l : List (S × V × X))

variable {ω : Platform}
local notation "D" => FP (Rounding.binary64 ω)

/-- `tau` of the initial trust 0.9. -/
theorem tau_start : ∃ t : ℝ, tfTau (Arith.lit 9 10 : D) = FP.fin t ∧ Rep (.binary64 ω) t ∧ 2 ≤ t ∧ t ≤ 3 := by
  have r16 := rep_two (ω := ω) (a := -4) (by norm_num) (by norm_num)
  have r8 := rep_two (ω := ω) (a := -3) (by norm_num) (by norm_num)
  have n14 := rep64_nat (ω := ω) (n := 14) (by norm_num)
  have rq : ∀ {m : ℤ}, 2 ^ 52 ≤ m → m < 2 ^ 53 → Rep (.binary64 ω) (m * 2 ^ (-53 : ℤ)) := by
    intro m h1 h2
    refine rnd_at (e := -53) (by norm_num) (by norm_num) ?_ ?_ (.inl ?_)
    · have : (2 : ℝ) ^ 52 ≤ m := by exact_mod_cast h1
      norm_num at this ⊢
      linarith
    · have : (m : ℝ) < 2 ^ 53 := by exact_mod_cast h2
      norm_num at this ⊢
      linarith
    · rw [mul_div_cancel_right₀ _ (two_zpow_pos _).ne']; norm_num
  have r1 : Rep (.binary64 ω) (7 / 8) := by
    have := rq (m := 7 * 2 ^ 50) (by norm_num) (by norm_num)
    norm_num at this ⊢
    exact this
  have r2 : Rep (.binary64 ω) (15 / 16) := by
    have := rq (m := 15 * 2 ^ 49) (by norm_num) (by norm_num)
    norm_num at this ⊢
    exact this
  obtain ⟨a, ha, -, a1, a2⟩ := rnd_between (x := 9 / 10) r1 r2 (by norm_num) (by norm_num)
  have r16' : Rep (.binary64 ω) (1 / 16) := by norm_num at r16 ⊢; exact r16
  have r8' : Rep (.binary64 ω) (1 / 8) := by norm_num at r8 ⊢; exact r8
  obtain ⟨b, hb, -, b1, b2⟩ := rnd_between (x := 1 - a) r16' r8' (by linarith) (by linarith)
  have hb0 : 0 < b := by linarith
  have rep2 : Rep (.binary64 ω) (-2) := by
    show (Rounding.binary64 ω).rnd (-2) = _
    rw [Rounding.odd]
    have := rep64_nat (ω := ω) (n := 2) (by norm_num)
    rw [show (Rounding.binary64 ω).rnd 2 = .fin 2 by exact_mod_cast this]; rfl
  have rep3 : Rep (.binary64 ω) (-3) := by
    show (Rounding.binary64 ω).rnd (-3) = _
    rw [Rounding.odd]
    have := rep64_nat (ω := ω) (n := 3) (by norm_num)
    rw [show (Rounding.binary64 ω).rnd 3 = .fin 3 by exact_mod_cast this]; rfl
  have l1 : Real.log b ≤ Real.log (1 / 8) := Real.log_le_log hb0 b2
  have l2 : Real.log (1 / 16) ≤ Real.log b := Real.log_le_log (by norm_num) b1
  have e1 : Real.log (1 / 8) = -(3 * Real.log 2) := by
    rw [one_div, Real.log_inv, show (8 : ℝ) = 2 ^ 3 by norm_num, Real.log_pow]; norm_num
  have e2 : Real.log (1 / 16) = -(4 * Real.log 2) := by
    rw [one_div, Real.log_inv, show (16 : ℝ) = 2 ^ 4 by norm_num, Real.log_pow]; norm_num
  have g1 := Real.log_two_gt_d9
  have g2 := Real.log_two_lt_d9
  obtain ⟨c, hc, hcr, c1, c2⟩ := faithful_between ((Rounding.binary64 ω).log_faithful b hb0) rep3 rep2 (by rw [e2] at l2; linarith)
    (by rw [e1] at l1; linarith)
  refine ⟨-c, ?_, ?_, by linarith, by linarith⟩
  · unfold tfTau
    have h1 : (Arith.lit 9 10 : D) = FP.fin a := by
      rw [FP.lit_eq]
      have : ((9 : Int) : ℝ) / ((10 : Nat) : ℝ) = 9 / 10 := by norm_num
      rw [this]; exact ha
    have h2 : (FP.fin 1 -. FP.fin a : D) = FP.fin b := by
      rw [fp_sub_fin (.binary64 ω)]; exact hb
    have h3 : (Arith.log (FP.fin b : D) : D) = FP.fin c := by
      show FNum.log _ (.fin b) = _
      simp only [FNum.log]
      rw [if_neg (by linarith), if_neg hb0.ne']
      exact hc
    rw [h1, FP.one_eq, h2, h3]; rfl
  · show (Rounding.binary64 ω).rnd (-c) = _
    rw [Rounding.odd, show (Rounding.binary64 ω).rnd c = .fin c from hcr]; rfl

/-- A sum of `n` terms that are at least 2. -/
theorem sum_large {t : ℝ} (h2 : 2 ≤ t) (n : Nat) : ∀ y : D,
    (fun a : D => a +. FP.fin t)^[n] (FP.fin 0) = y →
    y = FNum.pinf ∨ ∃ a : ℝ, y = FP.fin a ∧ ((min (2 * n) 200 : Nat) : ℝ) ≤ a := by
  induction n with
  | zero => rintro y rfl; exact .inr ⟨0, rfl, by simp⟩
  | succ n ih =>
    intro y hy
    rw [Function.iterate_succ_apply'] at hy
    rcases ih _ rfl with h | ⟨a, h, ha⟩
    · rw [h] at hy
      exact .inl hy.symm
    · rw [h] at hy
      have hy' : (Rounding.binary64 ω).rnd (a + t) = y := hy
      have hx : ((min (2 * (n + 1)) 200 : Nat) : ℝ) ≤ a + t := by
        have : min (2 * (n + 1)) 200 ≤ min (2 * n) 200 + 2 := by omega
        have : ((min (2 * (n + 1)) 200 : Nat) : ℝ) ≤ (min (2 * n) 200 : Nat) + 2 := by exact_mod_cast this
        linarith
      have m := (Rounding.binary64 ω).mono _ _ hx
      rw [show (Rounding.binary64 ω).rnd _ = _ from rep64_nat (ω := ω) (n := min (2 * (n + 1)) 200)
        ((min_le_right _ _).trans (by norm_num))] at m
      cases h' : (Rounding.binary64 ω).rnd (a + t) with
      | nan => exact absurd h' (Rounding.notNan _ _)
      | pinf => exact .inl (by rw [← hy', h'])
      | ninf => rw [h'] at m; simp [FNum.toEReal] at m
      | fin z =>
        rw [h'] at m
        exact .inr ⟨z, by rw [← hy', h']; rfl, by simpa [FNum.toEReal] using m⟩

/-- `exp` far below 0. -/
theorem exp_small {z : ℝ} (h : z ≤ -50) : ∃ y, (Rounding.binary64 ω).rnd ((Rounding.binary64 ω).expv z) = .fin y ∧ 0 ≤ y ∧ y ≤ 2 ^ (-60 : ℤ) := by
  have h1 : Real.exp z ≤ 2 ^ (-60 : ℤ) := by
    refine (Real.exp_le_exp.2 h).trans ?_
    have e : Real.exp (-50) = (Real.exp 1 ^ 50)⁻¹ := by
      rw [← Real.exp_nat_mul, ← Real.exp_neg]; norm_num
    have g : (2.7 : ℝ) ≤ Real.exp 1 := by linarith [Real.exp_one_gt_d9]
    have g2 : (2.7 : ℝ) ^ 50 ≤ Real.exp 1 ^ 50 := pow_le_pow_left₀ (by norm_num) g 50
    rw [e, zpow_neg]
    refine inv_anti₀ (by positivity) (le_trans ?_ g2)
    norm_num
  obtain ⟨y, hy, -, y0, y1⟩ := faithful_between ((Rounding.binary64 ω).exp_faithful z) rep_zero (rep_two (a := -60) (by norm_num) (by norm_num))
    (Real.exp_pos z).le h1
  exact ⟨y, hy, y0, y1⟩

theorem one_add_small {y : ℝ} (h0 : 0 ≤ y) (h : y ≤ 2 ^ (-60 : ℤ)) : (Rounding.binary64 ω).rnd (1 + y) = .fin 1 := by
  have h' : y ≤ 1 / 2 ^ 60 := by norm_num at h ⊢; exact h
  have := rnd_at (ω := ω) (x := 1 + y) (e := -52) (m := 2 ^ 52) (by norm_num) (by norm_num)
    (by norm_num; linarith) (by norm_num at h' ⊢; linarith)
    (.inl (by
      have e : (1 + y) / 2 ^ (-52 : ℤ) - ((2 ^ 52 : ℤ) : ℝ) = y * 2 ^ 52 := by
        norm_num; ring
      rw [e, abs_of_nonneg (by positivity)]
      norm_num at h' ⊢
      linarith))
  rw [this]
  norm_num

/-- Belief of a claim with a large log belief. -/
theorem tfSig_large {x : D} (hx : x = FNum.pinf ∨ ∃ a : ℝ, x = FP.fin a ∧ 200 ≤ a) :
    tfSig (Arith.lit 3 10 : D) x = FP.fin 1 := by
  have r1 := rep_two (ω := ω) (a := -2) (by norm_num) (by norm_num)
  have r2 := rep_two (ω := ω) (a := -1) (by norm_num) (by norm_num)
  obtain ⟨g, hg, -, g1, g2⟩ := rnd_between (x := 3 / 10) r1 r2 (by norm_num) (by norm_num)
  norm_num at g1 g2
  have hl : (Arith.lit 3 10 : D) = FP.fin g := by
    rw [FP.lit_eq]
    have : ((3 : Int) : ℝ) / ((10 : Nat) : ℝ) = 3 / 10 := by norm_num
    rw [this]; exact hg
  have hn : (Arith.neg (FP.fin g : D) : D) = FP.fin (-g) := rfl
  have key : ∃ y : ℝ, (Arith.exp ((FP.fin (-g) : D) *. x) : D) = FP.fin y ∧ 0 ≤ y ∧ y ≤ 2 ^ (-60 : ℤ) := by
    rcases hx with rfl | ⟨a, rfl, ha⟩
    · refine ⟨0, ?_, le_rfl, (two_zpow_pos _).le⟩
      show FNum.exp _ (FNum.mul _ (.fin (-g)) .pinf) = _
      simp only [FNum.mul]
      rw [if_neg (by linarith), FNum.infOf, if_neg (by linarith)]
      rfl
    · have hm : (Rounding.binary64 ω).rnd (-g * a) = .ninf ∨ ∃ z, (Rounding.binary64 ω).rnd (-g * a) = .fin z ∧ z ≤ -50 := by
        have r50 : (Rounding.binary64 ω).rnd (-50) = .fin (-50) := by
          rw [Rounding.odd]
          have := rep64_nat (ω := ω) (n := 50) (by norm_num)
          rw [show (Rounding.binary64 ω).rnd 50 = .fin 50 by exact_mod_cast this]; rfl
        have m := (Rounding.binary64 ω).mono (-g * a) (-50) (by nlinarith)
        rw [r50] at m
        cases h' : (Rounding.binary64 ω).rnd (-g * a) with
        | nan => exact absurd h' (Rounding.notNan _ _)
        | pinf => rw [h'] at m; simp [FNum.toEReal] at m
        | ninf => exact .inl rfl
        | fin z =>
          rw [h'] at m
          refine .inr ⟨z, rfl, ?_⟩
          have : ((z : ℝ) : EReal) ≤ ((-50 : ℝ) : EReal) := m
          exact_mod_cast this
      rcases hm with hm | ⟨z, hm, hz⟩
      · refine ⟨0, ?_, le_rfl, (two_zpow_pos _).le⟩
        show FNum.exp _ ((Rounding.binary64 ω).rnd (-g * a)) = _
        rw [hm]; rfl
      · obtain ⟨y, hy, h0, h1⟩ := exp_small hz
        refine ⟨y, ?_, h0, h1⟩
        show FNum.exp _ ((Rounding.binary64 ω).rnd (-g * a)) = _
        rw [hm]; exact hy
  obtain ⟨y, hy, h0, h1⟩ := key
  unfold tfSig
  have e : (FP.fin 1 +. FP.fin y : D) = FP.fin 1 := one_add_small (ω := ω) h0 h1
  rw [hl, hn, hy, FP.one_eq]
  rw [e, FP.div_fin _ one_ne_zero, div_one]
  exact rep_one

/-- The number of claims of a source is computed exactly. -/
theorem claimCount_fp {s : S} (h : (claimsOf l s).card ≤ 2 ^ 53) :
    rowDot (α := D) (claims l) (scL l s) (fun _ => Arith.ofNat 1) = FP.fin ((claimsOf l s).card : ℝ) := by
  have e : ∑ b ∈ (claims l).toFinset.filter (fun c => (s, c) ∈ recorded l), 1 = (claimsOf l s).card := by
    rw [Finset.sum_const, smul_eq_mul, mul_one]
    congr 1
    ext c
    simp only [Finset.mem_filter, List.mem_toFinset, mem_claimsOf]
    exact ⟨fun h => h.2, fun h => ⟨mem_claims_of_claimsOf l ((mem_claimsOf l).2 h), h⟩⟩
  have := rowDot_nat (R := .binary64 ω) C31_binary64 (nodup_claims l) (fun c => (s, c) ∈ recorded l) (fun c _ => scL_fp l s c)
    (fun _ => 1) (by rw [e]; exact h)
  rw [e] at this
  simpa only [FP.one_eq, Nat.cast_one] using this

/-- Weight of each of nine claims. -/
theorem tfWeight_nine {s : S} (h : (claimsOf l s).card = 9) : tfWeight (R := .binary64 ω) l s = FP.fin ninth := by
  unfold tfWeight
  rw [claimCount_fp l (by rw [h]; norm_num), h, FP.one_eq, FP.div_fin _ (by norm_num)]
  exact rnd_ninth

/-- Nine beliefs of 1 give a trust score above 1. -/
theorem tfTrust_nine {s : S} (h : (claimsOf l s).card = 9) {B : V × X → D}
    (hB : ∀ c ∈ claimsOf l s, B c = FP.fin 1) : tfTrust l B s = FP.fin (1 + 2 ^ (-52 : ℤ)) := by
  unfold tfTrust
  have e1 : (FP.fin 1 *. FP.fin ninth : D) = FP.fin ninth := by
    rw [FP.mul_fin, one_mul]; exact rep_ninth
  have e2 : (FP.fin ninth *. FP.fin 1 : D) = FP.fin ninth := by
    rw [FP.mul_fin, mul_one]; exact rep_ninth
  rw [tfWeight_nine l h, e1, rowDot_iterate (fun c => (s, c) ∈ recorded l) (FP.fin ninth)
    (fun c _ hc => by rw [hB c ((mem_claimsOf l).2 hc), e2]), claims_filter, h]
  exact nine_ninths

/-- First iteration: beliefs. -/
theorem first_belief {c : V × X} (h : 100 ≤ (sourcesOf l c).card) :
    tfSig (Arith.lit 3 10 : D) (tfLog l (fun _ => tfTau (Arith.lit 9 10)) c) = FP.fin 1 := by
  obtain ⟨t, ht, hr, h2, -⟩ := tau_start
  apply tfSig_large
  unfold tfLog
  have e1 : (FP.fin 1 *. FP.fin t : D) = FP.fin t := by
    rw [FP.mul_fin, one_mul]; exact hr
  rw [ht, rowDot_iterate (fun s => (s, c) ∈ recorded l) (FP.fin t) (fun _ _ _ => e1), sources_filter]
  rcases sum_large h2 _ _ rfl with h' | ⟨a, h', ha⟩
  · exact .inl h'
  · refine .inr ⟨a, h', ?_⟩
    rw [min_eq_right (by omega)] at ha
    exact_mod_cast ha

theorem tau_above : tfTau (FP.fin (1 + 2 ^ (-52 : ℤ)) : D) = FP.nan := by
  unfold tfTau
  have e : (FP.fin 1 -. FP.fin (1 + 2 ^ (-52 : ℤ)) : D) = FP.fin (-2 ^ (-52 : ℤ)) := by
    rw [fp_sub_fin (.binary64 ω), sub_add_cancel_left, Rounding.odd,
      show (Rounding.binary64 ω).rnd _ = _ from rep_two (a := -52) (by norm_num) (by norm_num)]
    rfl
  rw [FP.one_eq, e]
  show FNum.neg (FNum.log _ (.fin _)) = _
  have := two_zpow_pos (-52)
  simp only [FNum.log]
  rw [if_pos (by linarith)]
  rfl

theorem tau_nan : tfTau (FP.nan : D) = FP.nan := by
  unfold tfTau
  have e : (Arith.ofNat 1 -. FP.nan : D) = FP.nan := by
    have key : ∀ x : FNum, FNum.add (.binary64 ω) x (FNum.neg .nan) = .nan := by intro x; cases x <;> rfl
    exact key _
  rw [e]
  rfl

/-- Later iterations: a source with trust above 1 or NaN gets NaN. -/
theorem later_trust {s : S} {gamma : D} (h : (claimsOf l s).Nonempty) {T : S → D} (hT : tfTau (T s) = FP.nan) :
    tfTrust l (fun c => tfSig gamma (tfLog l (fun s => tfTau (T s)) c)) s = FP.nan := by
  obtain ⟨c, hc⟩ := h
  have hc' := (mem_claimsOf l).1 hc
  unfold tfTrust
  refine rowDot_nan (mem_claims_of_claimsOf l hc) (if_pos hc') ?_
  have : tfLog l (fun s => tfTau (T s)) c = FP.nan := by
    unfold tfLog
    exact rowDot_nan (mem_sources_of_sourcesOf l ((mem_sourcesOf l).2 hc')) (if_pos hc') hT
  simp only [this, tfSig_nan]

/-- A row as the sum of a list. -/
theorem rowDot_list {R : Rounding} {B : Type} (bs : List B) (P : B → Prop) [DecidablePred P] (q : FP R) (F : B → FP R) :
    rowDot (α := FP R) bs (fun b => if P b then some q else none) F =
      ((bs.filter P).map fun b => q *. F b).foldl Arith.add (FP.fin 0) := by
  unfold rowDot
  rw [FP.zero_eq]
  generalize (FP.fin 0 : FP R) = a
  induction bs generalizing a with
  | nil => rfl
  | cons b bs ih =>
    rw [List.foldl_cons, ih]
    by_cases h : P b
    · rw [List.filter_cons_of_pos (by simpa using h), List.map_cons, List.foldl_cons]
      congr 1
      simp only [rowStep, if_pos h]
    · rw [List.filter_cons_of_neg (by simpa using h)]
      congr 1
      simp only [rowStep, if_neg h]

/-- Trust scores exceed 1 by at most `n * 2 ^ -52`. -/
theorem tfTrust_bound {s : S} (hs : (claimsOf l s).Nonempty) (h : (claimsOf l s).card ≤ 2 ^ 52) {B : V × X → D}
    (hB : ∀ c ∈ claims l, UN (B c)) :
    tfTrust l B s = FP.nan ∨ ∃ y : ℝ, tfTrust l B s = FP.fin y ∧
      y ≤ 1 + (claimsOf l s).card * 2 ^ (-52 : ℤ) := by
  have hn1 : 1 ≤ (claimsOf l s).card := hs.card_pos
  generalize hn : (claimsOf l s).card = n at h hn1
  have hn1' : (1 : ℝ) ≤ n := by exact_mod_cast hn1
  have hn' : (n : ℝ) ≤ 2 ^ 52 := by exact_mod_cast h
  by_cases hnan : ∃ c ∈ claimsOf l s, B c = FP.nan
  · obtain ⟨c, hc, hcn⟩ := hnan
    exact .inl (rowDot_nan (mem_claims_of_claimsOf l hc) (if_pos ((mem_claimsOf l).1 hc)) hcn)
  · right
    have hfin : ∀ c ∈ claimsOf l s, ∃ y : ℝ, B c = FP.fin y ∧ 0 ≤ y ∧ y ≤ 1 := by
      intro c hc
      have key : ∀ x : FNum, UN x → x ≠ .nan → ∃ y : ℝ, x = .fin y ∧ 0 ≤ y ∧ y ≤ 1 := by
        intro x hx hne
        cases hx with
        | nan => exact absurd rfl hne
        | fin y h0 h1 => exact ⟨y, rfl, h0, h1⟩
      exact key (B c) (hB c (mem_claims_of_claimsOf l hc)) fun e => hnan ⟨c, hc, e⟩
    obtain ⟨q, hq, hqr, q0, -, hqe⟩ := unit_round (x := 1 / n) (by positivity)
      (by rw [div_le_iff₀ (by linarith)]; linarith)
    have hw : tfWeight (R := .binary64 ω) l s = FP.fin q := by
      unfold tfWeight
      rw [claimCount_fp l (by rw [hn]; omega), hn, FP.one_eq, FP.div_fin _ (by positivity)]
      exact hq
    have e1 : (FP.fin 1 *. FP.fin q : D) = FP.fin q := by
      rw [FP.mul_fin, one_mul]; exact hqr
    have hterm : ∀ c ∈ claimsOf l s, ∃ z : ℝ, (FP.fin q *. B c : D) = FP.fin z ∧ 0 ≤ z ∧ z ≤ q := by
      intro c hc
      obtain ⟨y, hy, y0, y1⟩ := hfin c hc
      obtain ⟨z, hz, -, z0, z1⟩ := rnd_between (x := q * y) rep_zero hqr (by positivity) (by nlinarith)
      exact ⟨z, by rw [hy, FP.mul_fin]; exact hz, z0, z1⟩
    obtain ⟨p, hp, hpq⟩ : ∃ p : List ℝ, (((claims l).filter fun c => (s, c) ∈ recorded l).map
        fun c => (FP.fin q *. B c : D)) = p.map FNum.fin ∧ p.length = n ∧ ∀ z ∈ p, 0 ≤ z ∧ z ≤ q := by
      have hlen := claims_filter l s
      rw [hn] at hlen
      have hmem : ∀ c ∈ ((claims l).filter fun c => (s, c) ∈ recorded l), c ∈ claimsOf l s := by
        intro c hc
        exact (mem_claimsOf l).2 (by simpa using (List.mem_filter.1 hc).2)
      rw [← hlen]
      generalize ((claims l).filter fun c => (s, c) ∈ recorded l) = L at hmem
      clear hlen
      induction L with
      | nil => exact ⟨[], rfl, rfl, by simp⟩
      | cons c L ih =>
        obtain ⟨p, h1, h2, h3⟩ := ih fun d hd => hmem d (by simp [hd])
        obtain ⟨z, hz, z0, z1⟩ := hterm c (hmem c (by simp))
        refine ⟨z :: p, ?_, by simp [h2], ?_⟩
        · rw [List.map_cons, List.map_cons, h1, hz]; rfl
        · intro w hw
          rcases List.mem_cons.1 hw with rfl | hw
          · exact ⟨z0, z1⟩
          · exact h3 w hw
    have hsum : 0 ≤ p.sum ∧ p.sum ≤ n * q := by
      refine ⟨List.sum_nonneg fun z hz => (hpq.2 z hz).1, ?_⟩
      have := List.sum_le_card_nsmul p q fun z hz => (hpq.2 z hz).2
      rwa [hpq.1, nsmul_eq_mul] at this
    have e52 : (2 : ℝ) ^ (-52 : ℤ) = 2 * 2 ^ (-53 : ℤ) := by norm_num
    have e53 : (n : ℝ) * 2 ^ (-53 : ℤ) ≤ 1 / 2 := by
      refine (mul_le_mul_of_nonneg_right hn' (two_zpow_pos _).le).trans ?_
      norm_num
    have hnq : n * q ≤ 1 + n * 2 ^ (-53 : ℤ) := by
      rw [abs_le] at hqe
      have h1 : (n : ℝ) * (1 / n) = 1 := by field_simp
      have := mul_le_mul_of_nonneg_left hqe.2 (by linarith : (0 : ℝ) ≤ n)
      rw [mul_sub, h1] at this
      linarith
    obtain ⟨L, hL, hLe⟩ := sum_round p (fun z hz => (hpq.2 z hz).1) 0 le_rfl (by
      rw [hpq.1]
      generalize (n : ℝ) * 2 ^ (-53 : ℤ) = u at *
      linarith [hsum.2])
    rw [hpq.1, abs_le, zero_add] at hLe
    have htr : tfTrust l B s = FP.fin L := by
      unfold tfTrust
      rw [hw, e1, rowDot_list, hp]
      exact hL
    refine ⟨L, htr, ?_⟩
    · rw [e52]
      have : (n : ℝ) * (2 * 2 ^ (-53 : ℤ)) = n * 2 ^ (-53 : ℤ) + n * 2 ^ (-53 : ℤ) := by ring
      rw [this]
      generalize (n : ℝ) * 2 ^ (-53 : ℤ) = u at *
      linarith [hsum.2, hLe.2]

end
end TD
