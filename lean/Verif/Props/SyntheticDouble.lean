import Verif.Lemmas.Kahan
import Verif.Props.Cli
/-!
# C78: synthetic data in double precision

Weights, their sum, the cumulative sums and their normalisation are rounded.
-/

namespace TD
open Spec Double

theorem sum_set (d : Nat) (w t : ℝ) (tv : Nat) (htv : tv < d) :
    ((List.replicate d w).set tv t).sum = ((d : ℝ) - 1) * w + t := by
  rw [List.set_eq_take_append_cons_drop]
  simp only [List.length_replicate, htv, if_true, List.sum_append, List.sum_cons, List.take_replicate,
    List.drop_replicate, List.sum_replicate, nsmul_eq_mul]
  have e1 : min tv d = tv := by omega
  rw [e1, Nat.cast_sub (by omega)]
  push_cast
  ring

/-- The weights in double precision: nearly the probabilities. -/
theorem weights64 (t : ℝ) (h0 : 0 ≤ t) (h1 : t ≤ 1) (d : Nat) (hd : 2 ≤ d) (hmax : d ≤ 2 ^ 50) :
    ∃ w : ℝ, 0 ≤ w ∧ (t = 1 → w = 0) ∧ ((d : ℝ) - 1) * |w - (1 - t) / ((d : ℝ) - 1)| ≤ 3 * uu ∧
      ∀ tv, claimWeights (FP.fin t : FP (.binary64 ω)) tv d = ((List.replicate d w).set tv t).map FP.fin := by
  have hu := uu_pos
  have hus := uu_small
  have hdu := n_uu hmax
  have hdr : (2 : ℝ) ≤ d := by exact_mod_cast hd
  have hd1 : ((d - 1 : ℕ) : ℝ) = (d : ℝ) - 1 := by
    rw [Nat.cast_sub (by omega)]; simp
  have hpos1 : (0 : ℝ) < (d : ℝ) - 1 := by linarith
  obtain ⟨s, hs, hsr, hs0, -, hse⟩ := unit_round (ω := ω) (x := 1 - t) (by linarith) (by linarith)
  have hs1 : s ≤ 1 := by
    obtain ⟨s', hs', -, -, h⟩ := rnd_between (R := .binary64 ω) rep_zero rep_one (x := 1 - t) (by linarith) (by linarith)
    rw [hs] at hs'
    cases hs'
    exact h
  have hq : s / ((d : ℝ) - 1) ≤ 2 := by
    rw [div_le_iff₀ hpos1]; linarith
  obtain ⟨w', hw, -, hw0, -, -⟩ := unit_round (ω := ω) (x := s / ((d : ℝ) - 1)) (div_nonneg hs0 hpos1.le) hq
  obtain ⟨w, hw', -, hwe, -⟩ := round_err (ω := ω) (x := s / ((d : ℝ) - 1))
    (by rw [abs_of_nonneg (div_nonneg hs0 hpos1.le)]; exact hq.trans (by linarith [four_le_big]))
  obtain rfl : w = w' := FNum.fin.inj (hw'.symm.trans hw)
  refine ⟨w, hw0, ?_, ?_, ?_⟩
  · rintro rfl
    rw [sub_self, Rounding.zero] at hs
    cases hs
    rw [zero_div, Rounding.zero] at hw
    exact (FNum.fin.inj hw).symm
  · have hse' : |s - (1 - t)| ≤ uu := hse
    have h2 : ((d : ℝ) - 1) * |w - s / ((d : ℝ) - 1)| ≤ ((d : ℝ) - 1) * (uu * (s / ((d : ℝ) - 1)) + ee) := by
      refine mul_le_mul_of_nonneg_left ?_ hpos1.le
      rwa [abs_of_nonneg (div_nonneg hs0 hpos1.le)] at hwe
    have h3 : ((d : ℝ) - 1) * (uu * (s / ((d : ℝ) - 1)) + ee) = uu * s + ((d : ℝ) - 1) * ee := by
      field_simp
    have h4 : ((d : ℝ) - 1) * ee ≤ uu := by nlinarith [ee_le_sq, ee_pos]
    have h5 : |w - (1 - t) / ((d : ℝ) - 1)| ≤ |w - s / ((d : ℝ) - 1)| + |s - (1 - t)| / ((d : ℝ) - 1) := by
      have e : w - (1 - t) / ((d : ℝ) - 1) = (w - s / ((d : ℝ) - 1)) + (s - (1 - t)) / ((d : ℝ) - 1) := by ring
      rw [e]
      refine (abs_add_le _ _).trans ?_
      rw [abs_div, abs_of_pos hpos1]
    have h6 := mul_le_mul_of_nonneg_left h5 hpos1.le
    rw [mul_add, mul_div_cancel₀ _ hpos1.ne'] at h6
    nlinarith
  · intro tv
    have hnat : (Arith.ofNat (d - 1) : FP (.binary64 ω)) = FP.fin ((d : ℝ) - 1) := by
      rw [FP.ofNat_eq, ← hd1]
      exact rep64_nat (by omega)
    have hsub : (Arith.ofNat 1 -. FP.fin t : FP (.binary64 ω)) = FP.fin s := by
      rw [FP.one_eq]
      show (Rounding.binary64 ω).rnd (1 + -t) = _
      rw [← sub_eq_add_neg, hs]; rfl
    unfold claimWeights
    dsimp only
    rw [hsub, hnat, FP.div_fin _ hpos1.ne', List.map_set, List.map_replicate]
    rw [hw]; rfl

/-- Facts about the list of weights. -/
theorem weights_list {t w : ℝ} {d : Nat} (hd : 2 ≤ d) (h0 : 0 ≤ t) (hw0 : 0 ≤ w)
    (hwe : ((d : ℝ) - 1) * |w - (1 - t) / ((d : ℝ) - 1)| ≤ 3 * uu) {tv : Nat} (htv : tv < d) :
    (∀ x ∈ (List.replicate d w).set tv t, 0 ≤ x) ∧ ((List.replicate d w).set tv t).length = d ∧
    |((List.replicate d w).set tv t).sum - 1| ≤ 3 * uu := by
  have hdr : (2 : ℝ) ≤ d := by exact_mod_cast hd
  have hpos1 : (0 : ℝ) < (d : ℝ) - 1 := by linarith
  refine ⟨?_, by simp, ?_⟩
  · intro x hx
    rcases List.mem_or_eq_of_mem_set hx with h | rfl
    · rw [(List.mem_replicate.1 h).2]; exact hw0
    · exact h0
  · rw [sum_set d w t tv htv]
    have e : ((d : ℝ) - 1) * w + t - 1 = ((d : ℝ) - 1) * (w - (1 - t) / ((d : ℝ) - 1)) := by
      field_simp
      ring
    rw [e, abs_mul, abs_of_pos hpos1]
    exact hwe

/-- Sampling works for up to `2 ^ 50` values. -/
theorem samples64 (g : Rng (FP (.binary64 ω))) (hg : UnitDraws g) (t : ℝ) (h0 : 0 ≤ t) (h1 : t ≤ 1) (d : Nat)
    (hd : 2 ≤ d) (hmax : d ≤ 2 ^ 50) : Samples g d t := by
  intro tv htv
  have hu := uu_pos
  have hus := uu_small
  have hdu := n_uu hmax
  have hdr : (2 : ℝ) ≤ d := by exact_mod_cast hd
  have hpos1 : (0 : ℝ) < (d : ℝ) - 1 := by linarith
  obtain ⟨w, hw0, hw1, hwe, hweights⟩ := weights64 (ω := ω) t h0 h1 d hd hmax
  obtain ⟨hmem, hlen, hsum1⟩ := weights_list hd h0 hw0 hwe htv
  have hs3 := abs_le.1 hsum1
  obtain ⟨K, hK, hKe⟩ := kahan_err (ω := ω) ((List.replicate d w).set tv t) hmem (by rw [hlen]; exact hmax) (by linarith)
  have htol := kahan_tol (ω := ω) (K := K) (by
    have := abs_le.1 hKe
    rw [abs_le]; constructor <;> linarith)
  obtain ⟨L, hL, hLe⟩ := sum_round (ω := ω) ((List.replicate d w).set tv t) hmem 0 le_rfl (by
    rw [hlen, zero_add]
    change _ + (d : ℝ) * uu ≤ 2
    linarith)
  rw [hlen, zero_add] at hLe
  change |L - _| ≤ (d : ℝ) * uu at hLe
  have hL0 : 0 < L := by
    have h2 := abs_le.1 hLe
    linarith
  unfold generateClaim
  rw [hweights]
  refine (choice_sat g hg _ hmem K L hK htol hL0 hL).mono ?_
  rintro v ⟨x, hx, hpos⟩
  have hv : v < d := by
    have := (List.getElem?_eq_some_iff.1 hx).1
    rwa [hlen] at this
  refine ⟨hv, ?_⟩
  unfold claimProb
  by_cases h : v = tv
  · subst h
    rw [if_pos rfl]
    have : x = t := by simpa [htv] using hx.symm
    rw [← this]; exact hpos
  · rw [if_neg h]
    rw [List.getElem?_set_ne (Ne.symm h)] at hx
    have hxw : x = w := by
      have := List.mem_of_getElem? hx
      exact (List.mem_replicate.1 this).2
    rw [hxw] at hpos
    refine div_pos ?_ hpos1
    rcases h1.lt_or_eq with hlt | he
    · linarith
    · rw [hw1 he] at hpos
      exact absurd hpos (lt_irrefl _)

theorem take_set_sum {t w : ℝ} {d tv : Nat} (hd : 2 ≤ d) (htv : tv < d)
    (hwe : ((d : ℝ) - 1) * |w - (1 - t) / ((d : ℝ) - 1)| ≤ 3 * uu) (i : Nat) (hi : i ≤ d) :
    |(((List.replicate d w).set tv t).take i).sum - ∑ j ∈ Finset.range i, claimProb t tv d j| ≤ 6 * uu := by
  have hdr : (2 : ℝ) ≤ d := by exact_mod_cast hd
  have hpos1 : (0 : ℝ) < (d : ℝ) - 1 := by linarith
  have key : ∀ i ≤ d, |(((List.replicate d w).set tv t).take i).sum - ∑ j ∈ Finset.range i, claimProb t tv d j| ≤
      i * |w - (1 - t) / ((d : ℝ) - 1)| := by
    intro i
    induction i with
    | zero => simp
    | succ i ih =>
      intro hi
      have ih := abs_le.1 (ih (by omega))
      rw [List.take_add_one, List.sum_append, Finset.sum_range_succ]
      have hn := neg_abs_le (w - (1 - t) / ((d : ℝ) - 1))
      have hn' := le_abs_self (w - (1 - t) / ((d : ℝ) - 1))
      have hn0 := abs_nonneg (w - (1 - t) / ((d : ℝ) - 1))
      generalize |w - (1 - t) / ((d : ℝ) - 1)| = δ at *
      unfold claimProb at ih ⊢
      by_cases h : i = tv
      · subst h
        rw [if_pos rfl]
        simp only [List.getElem?_set_self (show i < (List.replicate d w).length by simpa using htv), Option.toList_some,
          List.sum_singleton]
        push_cast
        rw [abs_le]; constructor <;> nlinarith
      · rw [if_neg h, List.getElem?_set_ne (Ne.symm h), List.getElem?_replicate, if_pos (by omega)]
        simp only [Option.toList_some, List.sum_singleton]
        push_cast
        rw [abs_le]; constructor <;> nlinarith
  refine (key i hi).trans ?_
  have h1 : (i : ℝ) ≤ 2 * ((d : ℝ) - 1) := by
    have : (i : ℝ) ≤ d := by exact_mod_cast hi
    linarith
  have := mul_le_mul_of_nonneg_right h1 (abs_nonneg (w - (1 - t) / ((d : ℝ) - 1)))
  linarith

/-- **C78.** In double precision, with at most `2 ^ 50` values: the value `v` is drawn exactly if the uniform
number is in the `v`-th of consecutive intervals that divide `[0, 1)`, and their boundaries differ by at most
`(4 * d + 14) / 2 ^ 53` from those without rounding. -/
theorem C78_intervals (t : ℝ) (h0 : 0 ≤ t) (h1 : t ≤ 1) (tv d : Nat) (hd : 2 ≤ d) (hmax : d ≤ 2 ^ 50) (htv : tv < d) :
    ∃ b : Nat → ℝ, b 0 = 0 ∧ b d = 1 ∧ (∀ i j, i ≤ j → j ≤ d → b i ≤ b j) ∧
      (∀ i ≤ d, |b i - ∑ j ∈ Finset.range i, claimProb t tv d j| ≤ (4 * d + 14) * 2 ^ (-53 : ℤ)) ∧
      ∀ (g : Rng (FP (.binary64 ω))) (k : Nat) (u : ℝ), g.unit k = FP.fin u → 0 ≤ u → ∀ v < d,
        (generateClaim g (FP.fin t) tv d k = .ok (v, k + 1) ↔ b v ≤ u ∧ u < b (v + 1)) := by
  obtain ⟨w, hw0, hw1, hwe, hweights⟩ := weights64 (ω := ω) t h0 h1 d hd hmax
  obtain ⟨hmem, hlen, hsum1⟩ := weights_list hd h0 hw0 hwe htv
  obtain ⟨b, b0, b1, b2, b3, b4⟩ := choice_intervals (ω := ω) _ hmem (by rw [hlen]; exact hmax) hsum1
  rw [hlen] at b1 b2 b3 b4
  refine ⟨b, b0, b1, b2, ?_, ?_⟩
  · intro i hi
    have e1 := abs_le.1 (b3 i hi)
    have e2 := abs_le.1 (take_set_sum hd htv hwe i hi)
    change _ ≤ (4 * (d : ℝ) + 14) * uu
    rw [abs_le]; constructor <;> linarith
  · intro g k u hg hu v hv
    unfold generateClaim
    rw [hweights]
    exact b4 g k u hg hu v hv

section
variable (g : Rng (FP (.binary64 ω))) (hg : UnitDraws g)
include hg

/-- **C78.** In double precision, with at most `2 ^ 50` values: sampling never fails, and the
value drawn is in the domain and has a positive probability. -/
theorem C78_draw (t : ℝ) (h0 : 0 ≤ t) (h1 : t ≤ 1) (tv d : Nat) (hd : 2 ≤ d) (hmax : d ≤ 2 ^ 50)
    (htv : tv < d) (k : Nat) :
    ∃ v k', generateClaim g (FP.fin t) tv d k = .ok (v, k') ∧ v < d ∧ 0 < claimProb t tv d v :=
  samples64 g hg t h0 h1 d hd hmax tv htv k

/-- **C78.** In double precision, with at most `2 ^ 50` values: the constructor succeeds for accepted
arguments and every outcome of the random generator, and its result has the same shape as
without rounding. -/
theorem C78_shape (a : SynthArgs (FP (.binary64 ω))) (ha : AcceptedArgs a) (hmax : a.domainSize ≤ 2 ^ 50) (k : Nat) :
    ∃ (trust : List ℝ) (s : SupervisedMatrix Nat (FP (.binary64 ω))) (k' : Nat),
      a.trust = some (trust.map FP.fin) ∧ synthNew g a k = .ok (s, k') ∧
      SynthShape trust a.numVariables.toNat a.domainSize.toNat s ∧
      (a.claimProbability = FP.fin 1 →
        ∀ i < trust.length, ∀ j < a.numVariables.toNat, Filled s.data.sv i j) := by
  obtain ⟨trust, s, k', h1, h2, h3, -, -, h4⟩ := shape_of g hg a ha
    (fun _ _ t _ h0 h1 => samples64 g hg t h0 h1 _ (by have := ha.2.2.1; omega) (by omega)) k
  exact ⟨trust, s, k', h1, h2, h3, h4⟩

/-- **C78.** In double precision, with at most `2 ^ 50` values: `ValueError` iff the arguments are
not accepted. -/
theorem C78_validation (a : SynthArgs (FP (.binary64 ω))) (hmax : a.domainSize ≤ 2 ^ 50) (k : Nat) :
    ((∃ e, synthNew g a k = .error e) ↔ ¬ AcceptedArgs a) ∧
    (∀ e, synthNew g a k = .error e → e = .valueError) :=
  validation_of g hg a (fun ha _ _ t _ h0 h1 =>
    samples64 g hg t h0 h1 _ (by have := ha.2.2.1; omega) (by omega)) k

/-- **C78.** In double precision, with at most `2 ^ 50` values: the CSV text can be read back. -/
theorem C78_round_trip (a : SynthArgs (FP (.binary64 ω))) (ha : AcceptedArgs a) (hmax : a.domainSize ≤ 2 ^ 50)
    (k : Nat) (str : Nat → Text) (parse : Text → Parsed Nat) (hrt : RoundTrips str parse) :
    ∃ (s : SupervisedMatrix Nat (FP (.binary64 ω))) (k' : Nat) (s' : SupervisedMatrix Nat (FP (.binary64 ω))),
      synthNew g a k = .ok (s, k') ∧
      SupervisedMatrix.fromCsv parse (synthToCsv str s) = .ok s' ∧
      s'.data = s.data ∧ (∀ j, s'.values.get? j = s.values.get? j) :=
  round_trip_of g hg a ha (fun _ _ t _ h0 h1 =>
    samples64 g hg t h0 h1 _ (by have := ha.2.2.1; omega) (by omega)) k str parse hrt

/-- **C78.** The command `synth` in double precision, with at most `2 ^ 50` values: it prints a text
that can be read back as a dataset of the requested shape. -/
theorem C78_command {X : Type} [DecidableEq X] (env : CliEnv X (.binary64 ω)) (k : Nat) (str : Nat → Text)
    (o : SynthOptions) (a : SynthArgs (FP (.binary64 ω))) (h : SynthMeans env o a) (ha : AcceptedArgs a)
    (hmax : a.domainSize ≤ 2 ^ 50) (parse : Text → Parsed Nat) (hrt : RoundTrips str parse) :
    ∃ text trust, ∃ s : SupervisedMatrix Nat (FP (.binary64 ω)),
      cliSynth env g k str o = .done text ∧ a.trust = some (trust.map FP.fin) ∧
      SupervisedMatrix.fromCsv parse text = .ok s ∧
      SynthShape trust a.numVariables.toNat a.domainSize.toNat s :=
  synth_output_of env g hg k str o a h ha (fun _ _ t _ h0 h1 =>
    samples64 g hg t h0 h1 _ (by have := ha.2.2.1; omega) (by omega)) parse hrt

end

/-! ### Any rounding -/

section
variable {R : Rounding}

/-- The compensated sum of zeros. -/
theorem kahan_zero (p : List ℝ) (h : ∀ x ∈ p, x = 0) : kahanSum (p.map FP.fin : List (FP R)) = FP.fin 0 := by
  have e1 : (FP.fin 0 -. FP.fin 0 : FP R) = FP.fin 0 := by
    show R.rnd (0 + -0) = _
    simp only [neg_zero, add_zero]; exact R.zero
  have e2 : (FP.fin 0 +. FP.fin 0 : FP R) = FP.fin 0 := by
    show R.rnd (0 + 0) = _
    simp only [add_zero]; exact R.zero
  have step : kahanStep ((FP.fin 0, FP.fin 0) : FP R × FP R) (FP.fin 0) = (FP.fin 0, FP.fin 0) := by
    unfold kahanStep
    dsimp only
    rw [e1, e2, e1, e1]
  have fold : ∀ q : List ℝ, (∀ x ∈ q, x = 0) →
      (q.map FP.fin).foldl kahanStep ((FP.fin 0, FP.fin 0) : FP R × FP R) = (FP.fin 0, FP.fin 0) := by
    intro q
    induction q with
    | nil => intro _; rfl
    | cons x q ih =>
      intro hq
      obtain rfl := hq x (by simp)
      rw [List.map_cons, List.foldl_cons, step]
      exact ih fun y hy => hq y (by simp [hy])
  cases p with
  | nil => exact FP.zero_eq
  | cons x p =>
    obtain rfl := h x (by simp)
    simp only [List.map_cons, kahanSum]
    rw [FP.zero_eq, fold p fun y hy => h y (by simp [hy])]

/-- Numbers in `[0, 1]` added up in turn: the sum is at least each of them, and does not overflow. -/
theorem foldl_unit {N : Nat} (hN : Precise R N) (p : List ℝ) (hp : ∀ x ∈ p, 0 ≤ x ∧ x ≤ 1 ∧ Rep R x) (i : Nat)
    (a : ℝ) (ha0 : 0 ≤ a) (hai : a ≤ i) (har : Rep R a) (hi : i + p.length ≤ N) :
    ∃ L, (p.map FNum.fin).foldl (FNum.add R) (.fin a) = .fin L ∧ a ≤ L ∧ ∀ x ∈ p, x ≤ L := by
  induction p generalizing i a with
  | nil => exact ⟨a, rfl, le_rfl, by simp⟩
  | cons x p ih =>
    obtain ⟨h0, h1, hr⟩ := hp x (by simp)
    simp only [List.length_cons] at hi
    have hrep : Rep R ((i + 1 : ℕ) : ℝ) := hN.rep (by omega)
    obtain ⟨b, hb, hbr, hab, hbi⟩ := rnd_between (R := R) har hrep (x := a + x) (by linarith) (by push_cast; linarith)
    obtain ⟨b', hb', -, hxb, -⟩ := rnd_between (R := R) hr hrep (x := a + x) (by linarith) (by push_cast; linarith)
    obtain rfl : b = b' := FNum.fin.inj (hb.symm.trans hb')
    obtain ⟨L, hL, hbL, hmem⟩ := ih (fun y hy => hp y (by simp [hy])) (i + 1) b (ha0.trans hab) hbi hbr (by omega)
    refine ⟨L, ?_, hab.trans hbL, ?_⟩
    · simp only [List.map_cons, List.foldl_cons, FNum.add, hb]
      exact hL
    · intro y hy
      rcases List.mem_cons.1 hy with rfl | hy
      · exact hxb.trans hbL
      · exact hmem y hy

/-- **C78.** With any rounding that tells `2 ^ -26` from 1, and for any weights up to 1 whose number can be
represented: if a value is drawn at all, it is in the domain and has a positive weight. -/
theorem C78_any (hR : R.rnd (1 / 67108864) ≠ .fin 1) {N : Nat} (hN : Precise R N) (g : Rng (FP R)) (hg : UnitDraws g)
    (p : List ℝ) (hp1 : ∀ x ∈ p, x ≤ 1 ∧ R.rnd x = .fin x) (hlen : p.length ≤ N)
    (k v k' : Nat) (h : g.choice (p.map FP.fin) k = .ok (v, k')) :
    ∃ x, p[v]? = some x ∧ 0 < x := by
  have hlit : (Arith.lit 1 67108864 : FP R) = R.rnd (1 / 67108864) := by
    show R.rnd _ = R.rnd _
    norm_num
  obtain ⟨c, hc, -, hc0, hc1⟩ := rnd_between (R := R) rep_zero rep_one (x := 1 / 67108864) (by norm_num) (by norm_num)
  have hc1' : c < 1 := lt_of_le_of_ne hc1 fun e => hR (by rw [hc, e])
  have h' := h
  unfold Rng.choice at h'
  dsimp only at h'
  split at h'; · cases h'
  rename_i hnan
  split at h'; · cases h'
  rename_i hneg
  split at h'; · cases h'
  rename_i htol
  rw [Bool.not_eq_true] at hnan htol
  have hp : ∀ x ∈ p, 0 ≤ x := by
    intro x hx
    by_contra hlt
    apply hneg
    rw [List.any_eq_true]
    refine ⟨FP.fin x, List.mem_map_of_mem hx, ?_⟩
    rw [FP.zero_eq, FP.lt_fin]
    simp [not_le.1 hlt]
  -- the compensated sum is a number other than 0
  have hsum : ∃ K, K ≠ 0 ∧ kahanSum (p.map FP.fin : List (FP R)) = FP.fin K := by
    have hx : ∀ y : FNum, Arith.lt (Arith.lit 1 67108864 : FP R) (Arith.abs ((show FP R from y) -. Arith.ofNat 1)) = false →
        isNan (show FP R from y) = false → ∃ K, K ≠ 0 ∧ y = .fin K := by
      intro y a1 a2
      rw [hlit, hc, FP.one_eq] at a1
      have inf : FNum.lt (.fin c) .pinf = true := by
        simp only [FNum.lt, FNum.toEReal]
        exact decide_eq_true (EReal.coe_lt_top _)
      cases y with
      | nan => cases a2
      | ninf =>
        exfalso
        change FNum.lt (.fin c) .pinf = false at a1
        rw [inf] at a1; cases a1
      | pinf =>
        exfalso
        change FNum.lt (.fin c) .pinf = false at a1
        rw [inf] at a1; cases a1
      | fin z =>
        refine ⟨z, ?_, rfl⟩
        rintro rfl
        have e : (Arith.abs ((show FP R from FNum.fin 0) -. FP.fin 1) : FP R) = FP.fin 1 := by
          show FNum.abs (R.rnd (0 + -1)) = _
          rw [abs_rnd]
          norm_num
          exact R.one
        rw [e] at a1
        change Arith.lt (FP.fin c : FP R) (FP.fin 1) = false at a1
        rw [FP.lt_fin] at a1
        exact (of_decide_eq_false a1) hc1'
    exact hx _ htol hnan
  obtain ⟨K, hK0, hK⟩ := hsum
  -- so one of the weights is positive
  obtain ⟨x, hx, hx0⟩ : ∃ x ∈ p, 0 < x := by
    by_contra hall
    have hz : ∀ x ∈ p, x = 0 := fun x hx => le_antisymm (not_lt.1 fun hlt => hall ⟨x, hx, hlt⟩) (hp x hx)
    rw [kahan_zero p hz] at hK
    exact hK0 (FNum.fin.inj hK).symm
  obtain ⟨L, hL, -, hmem⟩ := foldl_unit hN p (fun x hx => ⟨hp x hx, (hp1 x hx).1, (hp1 x hx).2⟩) 0 0 le_rfl (by simp)
    rep_zero (by omega)
  rw [hK] at htol
  obtain ⟨v', k1, e, hv⟩ := choice_sat g hg p hp K L hK htol (hx0.trans_le (hmem x hx)) hL k
  rw [h] at e
  cases e
  exact hv

end

/-! ### Instances -/

/-- Draws of 0. -/
noncomputable def Toy.rng64 (ω : Platform) : Rng (FP (.binary64 ω)) := ⟨fun _ => FP.fin 0, fun k => k⟩

theorem Toy.rng64_unit : UnitDraws (Toy.rng64 ω) := fun _ => ⟨0, rfl, le_refl _, by norm_num⟩

/-- Two sources, three variables, a million values. -/
noncomputable def Toy.args64 (ω : Platform) : SynthArgs (FP (.binary64 ω)) :=
  { trust := some [FP.fin 1, FP.fin (1/2)], numVariables := 3, claimProbability := FP.fin (1/2)
    domainSize := 1000000 }

theorem Toy.args64_accepted : AcceptedArgs (Toy.args64 ω) := by
  refine ⟨⟨_, rfl, by simp, ?_⟩, Or.inr ⟨1/2, rfl, by norm_num, by norm_num⟩, (show 2 ≤ 1000000 by decide), (show 1 ≤ 3 by decide)⟩
  intro t ht
  rcases List.mem_cons.1 ht with rfl | ht
  · exact ⟨1, rfl, by norm_num, by norm_num⟩
  · rw [List.mem_singleton.1 ht]
    exact ⟨1/2, rfl, by norm_num, by norm_num⟩

example (ω : Platform) := C78_shape (Toy.rng64 ω) Toy.rng64_unit (Toy.args64 ω) Toy.args64_accepted (show 1000000 ≤ 2 ^ 50 by decide) 0
example (ω : Platform) := C78_round_trip (Toy.rng64 ω) Toy.rng64_unit (Toy.args64 ω) Toy.args64_accepted (show 1000000 ≤ 2 ^ 50 by decide) 0 _ _
  Toy.unary_roundTrips
example (ω : Platform) := C78_intervals (ω := ω) (1 / 2) (by norm_num) (by norm_num) 3 10 (by norm_num) (by norm_num) (by norm_num)
example : Rounding.exact.rnd (1 / 67108864) ≠ .fin 1 := by
  intro h
  have : (1 / 67108864 : ℝ) = 1 := FNum.fin.inj h
  norm_num at this

end TD
