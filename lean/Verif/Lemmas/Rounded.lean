import Verif.Lemmas.Refine
import Verif.Spec.Rounding

/-! Sums of nonnegative numbers with rounding. -/

namespace TD
open Spec
attribute [-instance] instBEqProd

section
variable {R : Rounding}

namespace FP

theorem ofNat_eq (n : Nat) : (Arith.ofNat n : FP R) = R.rnd n := rfl
theorem lit_eq (a : Int) (b : Nat) : (Arith.lit a b : FP R) = R.rnd (a / b) := rfl
theorem add_fin (x y : ℝ) : (FP.fin x +. FP.fin y : FP R) = R.rnd (x + y) := rfl
theorem mul_fin (x y : ℝ) : (FP.fin x *. FP.fin y : FP R) = R.rnd (x * y) := rfl
theorem div_fin (x : ℝ) {y : ℝ} (h : y ≠ 0) : (FP.fin x /. FP.fin y : FP R) = R.rnd (x / y) := by
  show FNum.div R (.fin x) (.fin y) = _
  simp [FNum.div, h]
theorem lt_fin (x y : ℝ) : Arith.lt (FP.fin x : FP R) (FP.fin y) = decide (x < y) := by
  show FNum.lt (.fin x) (.fin y) = _
  simp [FNum.lt, FNum.toEReal]
theorem zero_eq : (Arith.ofNat 0 : FP R) = FP.fin 0 := by
  rw [ofNat_eq, Nat.cast_zero]; exact R.zero
theorem one_eq : (Arith.ofNat 1 : FP R) = FP.fin 1 := by
  rw [ofNat_eq, Nat.cast_one]; exact R.one
theorem fin_inj {x y : ℝ} : (FP.fin x : FP R) = FP.fin y ↔ x = y := by
  constructor
  · intro h; injection h
  · rintro rfl; rfl

end FP

/-- The number is represented exactly. -/
def Rep (R : Rounding) (x : ℝ) : Prop := R.rnd x = .fin x

theorem rep_zero : Rep R 0 := R.zero
theorem rep_one : Rep R 1 := R.one

theorem rnd_mono_fin {x y a b : ℝ} (h : x ≤ y) (ha : R.rnd x = .fin a) (hb : R.rnd y = .fin b) : a ≤ b := by
  have := R.mono x y h
  rw [ha, hb] at this
  simpa [FNum.toEReal] using this

/-- Rounding between representable bounds. -/
theorem rnd_between {a x b : ℝ} (ha : Rep R a) (hb : Rep R b) (h1 : a ≤ x) (h2 : x ≤ b) :
    ∃ y, R.rnd x = .fin y ∧ Rep R y ∧ a ≤ y ∧ y ≤ b := by
  have m1 := R.mono a x h1
  have m2 := R.mono x b h2
  rw [show R.rnd a = .fin a from ha] at m1
  rw [show R.rnd b = .fin b from hb] at m2
  cases h : R.rnd x with
  | nan => exact absurd h (R.notNan x)
  | pinf => rw [h] at m2; simp [FNum.toEReal] at m2
  | ninf => rw [h] at m1; simp [FNum.toEReal] at m1
  | fin y =>
    rw [h] at m1 m2
    refine ⟨y, rfl, R.idem x y h, ?_, ?_⟩
    · simpa [FNum.toEReal] using m1
    · simpa [FNum.toEReal] using m2

/-- Faithful roundings keep to intervals of representable numbers. -/
theorem faithful_between {a v w b : ℝ} (hw : FaithfulTo R.rnd v w) (ha : Rep R a) (hb : Rep R b) (h1 : a ≤ v) (h2 : v ≤ b) :
    ∃ y, R.rnd w = .fin y ∧ Rep R y ∧ a ≤ y ∧ y ≤ b := by
  have m1 := (hw a ha).1 h1
  have m2 := (hw b hb).2 h2
  cases h : R.rnd w with
  | nan => exact absurd h (R.notNan w)
  | pinf => rw [h] at m2; simp [FNum.toEReal] at m2
  | ninf => rw [h] at m1; simp [FNum.toEReal] at m1
  | fin y =>
    rw [h] at m1 m2
    refine ⟨y, rfl, R.idem w y h, ?_, ?_⟩
    · simpa [FNum.toEReal] using m1
    · simpa [FNum.toEReal] using m2

/-- Representable values are found exactly. -/
theorem faithful_rep {v w : ℝ} (hw : FaithfulTo R.rnd v w) (hv : Rep R v) : R.rnd w = .fin v := by
  obtain ⟨y, hy, -, h1, h2⟩ := faithful_between hw hv hv le_rfl le_rfl
  rw [hy, le_antisymm h2 h1]

variable {N : Nat}

theorem Spec.Precise.rep (h : Precise R N) {n : Nat} (hn : n ≤ N) : Rep R n := h.nat n hn

/-- Quotients of numbers that are not too far apart stay positive. -/
theorem Spec.Precise.quot (h : Precise R N) {x : ℝ} (h1 : 1 / N ≤ x) (h2 : x ≤ 1) :
    ∃ y, R.rnd x = .fin y ∧ Rep R y ∧ 0 < y ∧ y ≤ 1 := by
  obtain ⟨z, hz, hz0⟩ := h.pos
  have hzx : (0 : ℝ) ≤ x := le_trans (by positivity) h1
  obtain ⟨y, hy, hr, -, h1'⟩ := rnd_between (rep_zero (R := R)) rep_one hzx h2
  exact ⟨y, hy, hr, lt_of_lt_of_le hz0 (rnd_mono_fin h1 hz hy), h1'⟩

theorem Spec.Precise.quot_ge {x : ℝ} (h1 : 1 / (N : ℝ) ≤ x) {y z : ℝ} (hy : R.rnd x = .fin y)
    (hz : R.rnd (1 / N) = .fin z) : z ≤ y := rnd_mono_fin h1 hz hy

section
variable {A B : Type} [DecidableEq A] [DecidableEq B]

/-- Row of a 0-1 matrix times a vector of nonnegative numbers. -/
theorem rowDot_bounds (hN : Precise R N) {bs : List B} {g : B → Option (FP R)} (P : B → Prop)
    [DecidablePred P] (hg : ∀ b ∈ bs, g b = if P b then some (FP.fin 1) else none) {F : B → ℝ} {M : Nat}
    (hM : bs.length * M ≤ N) (hF : ∀ b ∈ bs, Rep R (F b) ∧ 0 ≤ F b ∧ F b ≤ M) :
    ∃ r, rowDot bs g (fun b => FP.fin (F b)) = FP.fin r ∧ Rep R r ∧ 0 ≤ r ∧
      r ≤ (bs.length * M : Nat) ∧ ∀ b ∈ bs, P b → F b ≤ r := by
  have key : ∀ (L : List B), (∀ b ∈ L, b ∈ bs) → ∀ (a : ℝ) (k : Nat), Rep R a → 0 ≤ a → a ≤ (k * M : Nat) →
      (k + L.length) * M ≤ N →
      ∃ r, L.foldl (rowStep g fun b => FP.fin (F b)) (FP.fin a) = FP.fin r ∧ Rep R r ∧ a ≤ r ∧
        r ≤ ((k + L.length) * M : Nat) ∧ ∀ b ∈ L, P b → F b ≤ r := by
    intro L
    induction L with
    | nil => intro _ a k ha _ hk _; exact ⟨a, rfl, ha, le_rfl, by simpa using hk, by simp⟩
    | cons b L ih =>
      intro hL a k ha h0 hk hlen
      have hgb := hg b (hL b (by simp))
      obtain ⟨f1, f2, f3⟩ := hF b (hL b (by simp))
      have ih' := ih (fun c hc => hL c (by simp [hc]))
      have hlen' : (k + 1 + L.length) * M ≤ N := by
        have : k + 1 + L.length = k + (b :: L).length := by simp; omega
        rw [this]; exact hlen
      have hcast : ((k + 1 : Nat) * M : ℕ) = k * M + M := by ring
      have hle : (k + 1) * M ≤ N := le_trans (Nat.mul_le_mul_right M (by omega)) hlen'
      by_cases hp : P b
      · rw [if_pos hp] at hgb
        have hmul : (FP.fin 1 *. FP.fin (F b) : FP R) = FP.fin (F b) := by
          rw [FP.mul_fin, one_mul]; exact f1
        have hab : a + F b ≤ ((k + 1) * M : Nat) := by rw [hcast]; push_cast at hk ⊢; linarith
        obtain ⟨y, hy, hyr, hya, hyb⟩ := rnd_between ha (hN.rep hle) (by linarith) hab
        obtain ⟨y', hy', -, hyF, -⟩ := rnd_between f1 (hN.rep hle) (by linarith) hab
        obtain rfl : y = y' := by rw [hy] at hy'; injection hy'
        obtain ⟨r, hr, hrr, hra, hrb, hrm⟩ := ih' y (k + 1) hyr (by linarith) hyb hlen'
        refine ⟨r, ?_, hrr, by linarith, ?_, ?_⟩
        · simp only [List.foldl_cons, rowStep, hgb, hmul]
          rw [FP.add_fin, hy]; exact hr
        · have e : k + (b :: L).length = k + 1 + L.length := by simp; omega
          rw [e]; exact hrb
        · intro c hc hpc
          rcases List.mem_cons.1 hc with rfl | hc
          · linarith
          · exact hrm c hc hpc
      · rw [if_neg hp] at hgb
        have hab : a ≤ ((k + 1) * M : Nat) := by
          rw [hcast]; push_cast at hk ⊢
          have : (0 : ℝ) ≤ M := Nat.cast_nonneg M
          linarith
        obtain ⟨r, hr, hrr, hra, hrb, hrm⟩ := ih' a (k + 1) ha h0 hab hlen'
        refine ⟨r, ?_, hrr, hra, ?_, ?_⟩
        · simp only [List.foldl_cons, rowStep, hgb]; exact hr
        · have e : k + (b :: L).length = k + 1 + L.length := by simp; omega
          rw [e]; exact hrb
        · intro c hc hpc
          rcases List.mem_cons.1 hc with rfl | hc
          · exact absurd hpc hp
          · exact hrm c hc hpc
  obtain ⟨r, h1, h2, h3, h4, h5⟩ := key bs (fun _ h => h) 0 0 rep_zero le_rfl (by simp) (by simpa using hM)
  refine ⟨r, ?_, h2, h3, by simpa using h4, h5⟩
  unfold rowDot
  rw [FP.zero_eq]
  exact h1

/-- With integers that are small enough there is no rounding error. -/
theorem rowDot_nat (hN : Precise R N) {bs : List B} (hb : bs.Nodup) {g : B → Option (FP R)} (P : B → Prop)
    [DecidablePred P] (hg : ∀ b ∈ bs, g b = if P b then some (FP.fin 1) else none) (F : B → Nat)
    (hM : ∑ b ∈ bs.toFinset.filter P, F b ≤ N) :
    rowDot bs g (fun b => FP.fin (F b)) = FP.fin (∑ b ∈ bs.toFinset.filter P, F b : Nat) := by
  have key : ∀ (L : List B), (∀ b ∈ L, b ∈ bs) → ∀ a : Nat, a + ((L.filter P).map F).sum ≤ N →
      L.foldl (rowStep g fun b => FP.fin (F b)) (FP.fin a) =
      FP.fin (a + ((L.filter P).map F).sum : Nat) := by
    intro L
    induction L with
    | nil => intro _ a _; simp
    | cons b L ih =>
      intro hL a ha
      have hgb := hg b (hL b (by simp))
      have ih' := ih (fun c hc => hL c (by simp [hc]))
      by_cases hp : P b
      · rw [if_pos hp] at hgb
        simp only [List.filter_cons, hp, decide_true, ↓reduceIte, List.map_cons, List.sum_cons] at ha ⊢
        have hmul : (FP.fin 1 *. FP.fin (F b) : FP R) = FP.fin (F b) := by
          rw [FP.mul_fin, one_mul]; exact hN.rep (by omega)
        simp only [List.foldl_cons, rowStep, hgb, hmul]
        have hadd : (FP.fin a +. FP.fin (F b) : FP R) = FP.fin (a + F b : Nat) := by
          rw [FP.add_fin, ← Nat.cast_add]; exact hN.rep (by omega)
        rw [hadd, ih' (a + F b) (by omega)]
        congr 2
        omega
      · rw [if_neg hp] at hgb
        simp only [List.filter_cons, hp, decide_false, Bool.false_eq_true, ↓reduceIte] at ha ⊢
        simp only [List.foldl_cons, rowStep, hgb]
        exact ih' a ha
  have e : ((bs.filter P).map F).sum = ∑ b ∈ bs.toFinset.filter P, F b := by
    rw [← List.sum_toFinset _ (hb.filter _), List.toFinset_filter]
    congr 1
    simp
  unfold rowDot
  rw [FP.zero_eq]
  have := key bs (fun _ h => h) 0 (by rw [zero_add, e]; exact hM)
  rw [zero_add, e, Nat.cast_zero] at this
  exact this

theorem maxFold_fp (as : List A) (f : A → ℝ) (m : ℝ) :
    ∃ r, (as.map fun a => (FP.fin (f a) : FP R)).foldl (fun m y => if Arith.lt m y then y else m) (FP.fin m) =
      FP.fin r ∧ m ≤ r ∧ (∀ a ∈ as, f a ≤ r) ∧ (r = m ∨ ∃ a ∈ as, f a = r) := by
  induction as generalizing m with
  | nil => exact ⟨m, rfl, le_rfl, by simp, .inl rfl⟩
  | cons a as ih =>
    simp only [List.map_cons, List.foldl_cons, FP.lt_fin]
    by_cases h : m < f a
    · obtain ⟨r, h1, h2, h3, h4⟩ := ih (f a)
      refine ⟨r, by simpa [h] using h1, by linarith, ?_, ?_⟩
      · intro b hb
        rcases List.mem_cons.1 hb with rfl | hb
        · exact h2
        · exact h3 b hb
      · rcases h4 with h4 | ⟨b, hb, h4⟩
        · exact .inr ⟨a, by simp, h4.symm⟩
        · exact .inr ⟨b, by simp [hb], h4⟩
    · obtain ⟨r, h1, h2, h3, h4⟩ := ih m
      refine ⟨r, by simpa [h] using h1, h2, ?_, ?_⟩
      · intro b hb
        rcases List.mem_cons.1 hb with rfl | hb
        · linarith
        · exact h3 b hb
      · rcases h4 with h4 | ⟨b, hb, h4⟩
        · exact .inl h4
        · exact .inr ⟨b, by simp [hb], h4⟩

theorem pyMax_fp {as : List A} (hne : as ≠ []) (f : A → ℝ) :
    ∃ a ∈ as, pyMax (as.map fun a => (FP.fin (f a) : FP R)) = .ok (FP.fin (f a)) ∧ ∀ b ∈ as, f b ≤ f a := by
  cases as with
  | nil => exact absurd rfl hne
  | cons a as =>
    obtain ⟨r, h1, h2, h3, h4⟩ := maxFold_fp (R := R) as f (f a)
    have hmax : ∀ b ∈ a :: as, f b ≤ r := by
      intro b hb
      rcases List.mem_cons.1 hb with rfl | hb
      · exact h2
      · exact h3 b hb
    rcases h4 with rfl | ⟨b, hb, rfl⟩
    · exact ⟨a, by simp, by simp only [List.map_cons, pyMax, h1], hmax⟩
    · exact ⟨b, by simp [hb], by simp only [List.map_cons, pyMax, h1], hmax⟩

/-- Nonnegative numbers, not all 0, divided by their maximum. -/
theorem normalise_fp {as : List A} (f : A → ℝ) (h0 : ∀ a ∈ as, 0 ≤ f a) (hp : ∃ a ∈ as, 0 < f a) :
    ∃ h : A → ℝ, normalise (as.map fun a => (FP.fin (f a) : FP R)) = .ok (as.map fun a => FP.fin (h a)) ∧
      (∀ a ∈ as, Rep R (h a) ∧ 0 ≤ h a ∧ h a ≤ 1) ∧ ∃ a ∈ as, h a = 1 := by
  obtain ⟨a0, ha0, hpos⟩ := hp
  obtain ⟨m, hm, hmax, hle⟩ := pyMax_fp (R := R) (List.ne_nil_of_mem ha0) f
  have hm0 : 0 < f m := lt_of_lt_of_le hpos (hle a0 ha0)
  have hdiv : ∀ a, ∃ y, a ∈ as → R.rnd (f a / f m) = .fin y ∧ Rep R y ∧ 0 ≤ y ∧ y ≤ 1 := by
    intro a
    by_cases ha : a ∈ as
    · obtain ⟨y, hy⟩ := rnd_between (rep_zero (R := R)) rep_one (div_nonneg (h0 a ha) hm0.le)
        ((div_le_one hm0).2 (hle a ha))
      exact ⟨y, fun _ => hy⟩
    · exact ⟨0, fun h => absurd h ha⟩
  choose h hh using hdiv
  refine ⟨h, ?_, fun a ha => (hh a ha).2, m, hm, ?_⟩
  · unfold normalise
    rw [hmax]
    simp only [bind, Except.bind, pure, Except.pure, List.map_map]
    congr 1
    apply List.map_congr_left
    intro a ha
    simp only [Function.comp_apply]
    rw [FP.div_fin _ hm0.ne']
    exact (hh a ha).1
  · have := (hh m hm).1
    rw [div_self hm0.ne', R.one] at this
    injection this with this
    exact this.symm

end

/-! ### The dataset -/
section
variable {S V X : Type} [DecidableEq S] [DecidableEq V] [DecidableEq X] (l : List (S × V × X))
variable (f : Option (V → X → X → Option (FP R)))

theorem scL_fp (s : S) (c : V × X) :
    (scL l s c : Option (FP R)) = if (s, c) ∈ recorded l then some (FP.fin 1) else none := by
  simp only [scL, oneIf, FP.one_eq, decide_eq_true_eq]

/-- Beliefs that are finite, nonnegative, representable, at most `M`, not all 0. -/
def Start (M : Nat) (b : Vec (FP R)) : Prop :=
  ∃ B : V × X → ℝ, b = (claims l).map (fun c => FP.fin (B c)) ∧
    (∀ c ∈ claims l, Rep R (B c) ∧ 0 ≤ B c ∧ B c ≤ M) ∧ ∃ c ∈ claims l, 0 < B c

/-- Normalised scores. -/
def Normal (t b : Vec (FP R)) : Prop :=
  ∃ (T : S → ℝ) (B : V × X → ℝ), t = (sources l).map (fun s => FP.fin (T s)) ∧
    b = (claims l).map (fun c => FP.fin (B c)) ∧
    (∀ s ∈ sources l, Rep R (T s) ∧ 0 ≤ T s ∧ T s ≤ 1) ∧
    (∀ c ∈ claims l, Rep R (B c) ∧ 0 ≤ B c ∧ B c ≤ 1) ∧
    (∃ s ∈ sources l, T s = 1) ∧ ∃ c ∈ claims l, B c = 1

theorem Normal.start {t b : Vec (FP R)} (h : Normal l t b) : Start l 1 b := by
  obtain ⟨T, B, -, hb, -, h2, -, c, hc, h3⟩ := h
  exact ⟨B, hb, by simpa using h2, c, hc, by rw [h3]; exact one_pos⟩

/-- One iteration of Sums. -/
theorem sums_normal (hN : Precise R N) {M : Nat}
    (hM : (sources l).length * ((claims l).length * M) ≤ N) (hM' : (claims l).length * M ≤ N)
    (t : Vec (FP R)) {b : Vec (FP R)} (hb : Start l M b) :
    ∃ s, sumsBody (matsOf l f) t b = .ok (some s) ∧ s.cmp1 = t ∧ s.cmp2 = s.trust ∧
      Normal l s.trust s.belief := by
  obtain ⟨B, rfl, hB, c0, hc0, hpos⟩ := hb
  have h1 : ∀ s, ∃ r, rowDot (claims l) (scL l s) (fun c => (FP.fin (B c) : FP R)) = FP.fin r ∧ Rep R r ∧
      0 ≤ r ∧ r ≤ ((claims l).length * M : Nat) ∧ ∀ c ∈ claims l, (s, c) ∈ recorded l → B c ≤ r :=
    fun s => rowDot_bounds hN (fun c => (s, c) ∈ recorded l) (fun c _ => scL_fp l s c) hM' hB
  choose T hT using h1
  have e1 : (matsOf l f).sc.mulVec ((claims l).map fun c => FP.fin (B c)) =
      (sources l).map fun s => FP.fin (T s) := by
    rw [sc_eq_ofRel, Mat.mulVec_ofRel]
    apply List.map_congr_left
    intro s _
    exact (hT s).1
  have h2 : ∀ c, ∃ r, rowDot (sources l) (fun s => scL l s c) (fun s => (FP.fin (T s) : FP R)) = FP.fin r ∧
      Rep R r ∧ 0 ≤ r ∧ r ≤ ((sources l).length * ((claims l).length * M) : Nat) ∧
      ∀ s ∈ sources l, (s, c) ∈ recorded l → T s ≤ r :=
    fun c => rowDot_bounds hN (fun s => (s, c) ∈ recorded l) (fun s _ => scL_fp l s c) hM
      fun s _ => ⟨(hT s).2.1, (hT s).2.2.1, (hT s).2.2.2.1⟩
  choose B' hB' using h2
  have e2 : (matsOf l f).sc.T.mulVec ((sources l).map fun s => FP.fin (T s)) =
      (claims l).map fun c => FP.fin (B' c) := by
    rw [scT_eq_ofRel, Mat.mulVec_ofRel]
    apply List.map_congr_left
    intro c _
    exact (hB' c).1
  obtain ⟨s0, hs0⟩ := sourcesOf_nonempty l hc0
  have hrec := (mem_sourcesOf l).1 hs0
  have hs0' := mem_sources_of_sourcesOf l hs0
  have hT0 : 0 < T s0 := lt_of_lt_of_le hpos ((hT s0).2.2.2.2 c0 hc0 hrec)
  have hB0 : 0 < B' c0 := lt_of_lt_of_le hT0 ((hB' c0).2.2.2.2 s0 hs0' hrec)
  obtain ⟨T1, n1, n2, n3⟩ := normalise_fp (R := R) T (fun s _ => (hT s).2.2.1) ⟨s0, hs0', hT0⟩
  obtain ⟨B1, m1, m2, m3⟩ := normalise_fp (R := R) B' (fun c _ => (hB' c).2.2.1) ⟨c0, hc0, hB0⟩
  refine ⟨⟨t, (sources l).map fun s => FP.fin (T1 s), (sources l).map fun s => FP.fin (T1 s),
    (claims l).map fun c => FP.fin (B1 c)⟩, ?_, rfl, rfl, T1, B1, rfl, rfl, n2, m2, n3, m3⟩
  unfold sumsBody
  rw [e1]
  dsimp only
  rw [e2, n1, m1]
  rfl

/-! ### Prior beliefs -/

theorem length_sources : (sources l).length = (allSources l).card := by
  rw [← sources_toFinset, List.toFinset_card_of_nodup (nodup_sources l)]

theorem length_claims : (claims l).length = (allClaims l).card := by
  rw [← claims_toFinset, List.toFinset_card_of_nodup (nodup_claims l)]

theorem card_sourcesOf_le (c : V × X) : (sourcesOf l c).card ≤ (sources l).length := by
  rw [length_sources]
  exact Finset.card_le_card fun s hs => (mem_allSources l).2 (mem_sources_of_sourcesOf l hs)

theorem card_rivals_le (c : V × X) : (rivals l c).card ≤ (claims l).length := by
  rw [length_claims]
  exact Finset.card_le_card (Finset.filter_subset _ _)

theorem sourceCounts_fp (hN : Precise R N) (hS : (sources l).length ≤ N) :
    sourceCounts (matsOf l f) = (claims l).map fun c => FP.fin ((sourcesOf l c).card : ℝ) := by
  rw [sourceCounts_eq]
  apply List.map_congr_left
  intro c _
  have e : ∑ b ∈ (sources l).toFinset.filter (fun s => (s, c) ∈ recorded l), 1 = (sourcesOf l c).card := by
    rw [Finset.sum_const, smul_eq_mul, mul_one]
    congr 1
    ext s
    simp only [Finset.mem_filter, List.mem_toFinset, mem_sourcesOf]
    exact ⟨fun h => h.2, fun h => ⟨mem_sources_of_sourcesOf l ((mem_sourcesOf l).2 h), h⟩⟩
  have := rowDot_nat hN (nodup_sources l) (fun s => (s, c) ∈ recorded l) (fun s _ => scL_fp l s c)
    (fun _ => 1) (by rw [e]; exact (card_sourcesOf_le l c).trans hS)
  rw [e] at this
  simpa only [FP.one_eq, Nat.cast_one] using this

theorem mutEx_fp (hN : Precise R N) (F : V × X → Nat) (c : V × X) (hF : ∑ d ∈ rivals l c, F d ≤ N) :
    rowDot (claims l) (fun d => if c.1 = d.1 then some (FP.fin 1) else none)
      (fun d => (FP.fin (F d) : FP R)) = FP.fin (∑ d ∈ rivals l c, F d : Nat) := by
  have e : (claims l).toFinset.filter (fun d => c.1 = d.1) = rivals l c := by
    rw [claims_toFinset]; rfl
  have := rowDot_nat (R := R) hN (nodup_claims l) (g := fun d => if c.1 = d.1 then some (FP.fin 1) else none)
    (fun d => c.1 = d.1) (fun d _ => rfl) F (by rw [e]; exact hF)
  rw [e] at this
  exact this

theorem mutEx_mulVec_fp (hN : Precise R N) (F : V × X → Nat)
    (hF : ∀ c ∈ claims l, ∑ d ∈ rivals l c, F d ≤ N) :
    (matsOf l f).mutEx.mulVec ((claims l).map fun c => FP.fin (F c)) =
      (claims l).map fun c => FP.fin (∑ d ∈ rivals l c, F d : Nat) := by
  rw [mutEx_eq_ofRel, Mat.mulVec_ofRel]
  apply List.map_congr_left
  intro c hc
  rw [← mutEx_fp l hN F c (hF c hc)]
  congr 1
  funext d
  simp only [mxL, oneIf, FP.one_eq, decide_eq_true_eq]

/-- Beliefs that are finite, representable, at least `rnd (1 / N)` (or 1) and at most `M`. -/
def Begin (N M : Nat) (b : Vec (FP R)) : Prop :=
  ∃ B : V × X → ℝ, b = (claims l).map (fun c => FP.fin (B c)) ∧
    (∀ c ∈ claims l, Rep R (B c) ∧ 0 < B c ∧ B c ≤ M) ∧
    ∀ z, R.rnd (1 / N) = .fin z → z ≤ 1 → ∀ c ∈ claims l, z ≤ B c

theorem Begin.start {N M : Nat} {b : Vec (FP R)} (hl : l ≠ []) (h : Begin l N M b) : Start l M b := by
  obtain ⟨B, hb, h1, -⟩ := h
  obtain ⟨c0, hc0⟩ := List.exists_mem_of_ne_nil _ (claims_ne hl)
  exact ⟨B, hb, fun c hc => ⟨(h1 c hc).1, (h1 c hc).2.1.le, (h1 c hc).2.2⟩, c0, hc0, (h1 c0 hc0).2.1⟩

theorem prior_begin (hN : Precise R N) (hl : l ≠ []) (h2 : 2 ≤ N)
    (hS : (sources l).length * (claims l).length ≤ N) (p : Prior) :
    ∃ b, priorBeliefs (some p) (matsOf l f) = .ok b ∧ Begin l N (sources l).length b := by
  obtain ⟨c0, hc0⟩ := List.exists_mem_of_ne_nil _ (claims_ne hl)
  have hC1 : 1 ≤ (claims l).length := List.length_pos_of_mem hc0
  have hS1 : 1 ≤ (sources l).length := List.length_pos_iff.2 (sources_ne hl)
  have hSN : (sources l).length ≤ N := le_trans (Nat.le_mul_of_pos_right _ hC1) hS
  have hCN : (claims l).length ≤ N := le_trans (Nat.le_mul_of_pos_left _ hS1) hS
  have hS1' : (1 : ℝ) ≤ (sources l).length := by exact_mod_cast hS1
  have hNpos : (0 : ℝ) < N := by exact_mod_cast (by omega : 0 < N)
  have hcnt : ∀ c ∈ claims l, 0 < (sourcesOf l c).card := fun c hc => (sourcesOf_nonempty l hc).card_pos
  -- quotients `x` with `1/N ≤ x ≤ 1`
  have hq : ∀ Q : V × X → ℝ, (∀ c ∈ claims l, 1 / (N : ℝ) ≤ Q c ∧ Q c ≤ 1) →
      Begin (R := R) l N (sources l).length ((claims l).map fun c => (R.rnd (Q c) : FP R)) := by
    intro Q hQ
    have : ∀ c, ∃ y, c ∈ claims l → R.rnd (Q c) = .fin y ∧ Rep R y ∧ 0 < y ∧ y ≤ 1 := by
      intro c
      by_cases hc : c ∈ claims l
      · obtain ⟨y, hy⟩ := hN.quot (hQ c hc).1 (hQ c hc).2
        exact ⟨y, fun _ => hy⟩
      · exact ⟨0, fun h => absurd h hc⟩
    choose B hB using this
    refine ⟨B, ?_, fun c hc => ?_, fun z hz _ c hc => Precise.quot_ge (hQ c hc).1 (hB c hc).1 hz⟩
    · apply List.map_congr_left
      intro c hc
      exact (hB c hc).1
    · obtain ⟨-, h1, h2, h3⟩ := hB c hc
      exact ⟨h1, h2, h3.trans hS1'⟩
  cases p with
  | fixed =>
    refine ⟨_, rfl, ?_⟩
    have e : (List.replicate (matsOf l f).numClaims (Arith.lit 1 2 : FP R)) =
        (claims l).map fun _ => (R.rnd (1 / 2) : FP R) := by
      show List.replicate (claims l).length _ = _
      rw [List.map_const']
      congr 1
      rw [FP.lit_eq]
      show R.rnd _ = R.rnd _
      norm_num
    rw [e]
    refine hq (fun _ => 1 / 2) fun _ _ => ⟨?_, by norm_num⟩
    apply one_div_le_one_div_of_le (by norm_num)
    exact_mod_cast h2
  | count =>
    refine ⟨_, rfl, ?_⟩
    rw [sourceCounts_fp l f hN hSN]
    refine ⟨fun c => (sourcesOf l c).card, rfl, fun c hc => ?_, fun z _ hz c hc => ?_⟩
    · have := card_sourcesOf_le l c
      exact ⟨hN.rep (this.trans hSN), Nat.cast_pos.2 (hcnt c hc), Nat.cast_le.2 this⟩
    · exact hz.trans (Nat.one_le_cast.2 (hcnt c hc))
  | uniform =>
    refine ⟨_, rfl, ?_⟩
    have e : (ones (matsOf l f).numClaims : Vec (FP R)) = (claims l).map fun _ => FP.fin ((1 : Nat) : ℝ) := by
      show (ones (claims l).length : Vec (FP R)) = _
      rw [ones_eq]
      simp only [FP.one_eq, Nat.cast_one]
    have hr : ∀ c, ∑ d ∈ rivals l c, 1 = (rivals l c).card := fun c => by simp
    rw [e, mutEx_mulVec_fp l f hN (fun _ => 1) fun c _ => by rw [hr]; exact (card_rivals_le l c).trans hCN]
    rw [List.map_map]
    have e2 : (claims l).map ((Arith.ofNat 1 /. ·) ∘ fun c => (FP.fin ((∑ d ∈ rivals l c, 1 : Nat) : ℝ) : FP R)) =
        (claims l).map fun c => (R.rnd (1 / (rivals l c).card) : FP R) := by
      apply List.map_congr_left
      intro c hc
      simp only [Function.comp_apply]
      rw [hr, FP.one_eq, FP.div_fin]
      have : 0 < (rivals l c).card := Finset.card_pos.2 ⟨c, self_mem_rivals l hc⟩
      exact_mod_cast this.ne'
    rw [e2]
    refine hq (fun c => 1 / (rivals l c).card) fun c hc => ?_
    have h0 : 0 < (rivals l c).card := Finset.card_pos.2 ⟨c, self_mem_rivals l hc⟩
    have h0' : (1 : ℝ) ≤ (rivals l c).card := by exact_mod_cast h0
    refine ⟨one_div_le_one_div_of_le (by linarith) ?_, ?_⟩
    · exact_mod_cast (card_rivals_le l c).trans hCN
    · rw [div_le_one (by linarith)]; exact h0'
  | voted =>
    refine ⟨_, rfl, ?_⟩
    rw [sourceCounts_fp l f hN hSN]
    have hsum : ∀ c, ∑ d ∈ rivals l c, (sourcesOf l d).card ≤ N := by
      intro c
      calc ∑ d ∈ rivals l c, (sourcesOf l d).card ≤ ∑ d ∈ rivals l c, (sources l).length :=
            Finset.sum_le_sum fun d _ => card_sourcesOf_le l d
        _ = (rivals l c).card * (sources l).length := by rw [Finset.sum_const, smul_eq_mul]
        _ ≤ (claims l).length * (sources l).length := Nat.mul_le_mul_right _ (card_rivals_le l c)
        _ ≤ N := by rw [mul_comm]; exact hS
    rw [mutEx_mulVec_fp l f hN (fun c => (sourcesOf l c).card) fun c _ => hsum c]
    have hge : ∀ c ∈ claims l, (sourcesOf l c).card ≤ ∑ d ∈ rivals l c, (sourcesOf l d).card := fun c hc =>
      Finset.single_le_sum (f := fun d => (sourcesOf l d).card) (fun _ _ => Nat.zero_le _) (self_mem_rivals l hc)
    have e2 : vzip Arith.div ((claims l).map fun c => (FP.fin ((sourcesOf l c).card : ℝ) : FP R))
        ((claims l).map fun c => FP.fin ((∑ d ∈ rivals l c, (sourcesOf l d).card : Nat) : ℝ)) =
        (claims l).map fun c =>
          (R.rnd ((sourcesOf l c).card / (∑ d ∈ rivals l c, (sourcesOf l d).card : Nat)) : FP R) := by
      unfold vzip
      rw [List.zipWith_map, List.zipWith_self]
      apply List.map_congr_left
      intro c hc
      rw [FP.div_fin]
      have := (hcnt c hc).trans_le (hge c hc)
      exact_mod_cast this.ne'
    rw [e2]
    refine hq (fun c => (sourcesOf l c).card / (∑ d ∈ rivals l c, (sourcesOf l d).card : Nat)) fun c hc => ?_
    have h1 : (1 : ℝ) ≤ (sourcesOf l c).card := by exact_mod_cast hcnt c hc
    have h2 : ((sourcesOf l c).card : ℝ) ≤ (∑ d ∈ rivals l c, (sourcesOf l d).card : Nat) := by
      exact_mod_cast hge c hc
    have h3 : ((∑ d ∈ rivals l c, (sourcesOf l d).card : Nat) : ℝ) ≤ N := by exact_mod_cast hsum c
    refine ⟨?_, ?_⟩
    · apply div_le_div₀ (by linarith) h1 (by linarith) h3
    · rw [div_le_one (by linarith)]; exact h2

theorem prior_start (hN : Precise R N) (hl : l ≠ []) (h2 : 2 ≤ N)
    (hS : (sources l).length * (claims l).length ≤ N) (p : Prior) :
    ∃ b, priorBeliefs (some p) (matsOf l f) = .ok b ∧ Start l (sources l).length b := by
  obtain ⟨b, hb, h⟩ := prior_begin l f hN hl h2 hS p
  exact ⟨b, hb, h.start l hl⟩

end
end
end TD
