import Verif.Spec.Objective
import Verif.Props.Settle
import Mathlib.Analysis.Complex.ExponentialBounds
/-!
# C91: TruthFinder may never settle

Exact arithmetic.
-/

namespace TD
open Spec Ex
attribute [-instance] instBEqProd

variable {S V X : Type} [DecidableEq S] [DecidableEq V] [DecidableEq X] {l : List (S × V × X)}
  {f : Option (V → X → X → Option ℝ)}

theorem pass_at {c : AlgCfg Ex} {f : Option (V → X → X → Option Ex)} {init : Scores S V X}
    {step : Scores S V X → Scores S V X} {cmp : Scores S V X → (S → ℝ) × (S → ℝ)} {Inv : Scores S V X → Prop}
    (H : Implements c l f init step cmp Inv) (i : Nat) {p : Scores S V X} (hp : Inv p) :
    passNo (c.kind.body (matsOf l f)) (repS l p.1) (repC l p.2) i =
      some ⟨repS l (cmp (step^[i] p)).1, repS l (cmp (step^[i] p)).2, repS l (step^[i + 1] p).1, repC l (step^[i + 1] p).2⟩ := by
  induction i generalizing p with
  | zero => simp [passNo, H.body_eq p hp]
  | succ i ih =>
    rw [passNo_succ (H.body_eq p hp)]
    exact ih (H.inv_step p hp)

/-- A run with a `ConvergenceIterator` fails if no compared distance is below the threshold. -/
theorem run_fails_of_ge {k : Kind Ex} {pr : Option Prior} {f : Option (V → X → X → Option Ex)} {init : Scores S V X}
    {step : Scores S V X → Scores S V X} {cmp : Scores S V X → (S → ℝ) × (S → ℝ)} {Inv : Scores S V X → Prop}
    {m : Measure} {th : ℝ} {limit : Int} (hl : l ≠ [])
    (H : Implements ⟨k, .conv (some m) (fin th) limit, pr⟩ l f init step cmp Inv)
    (hfar : ∀ i < limit.toNat, th ≤ distance m (allSources l) (cmp (step^[i] init)).1 (cmp (step^[i] init)).2)
    (fuel : Nat) (hfuel : limit.toNat < fuel) (clock : Nat → Ex) (st : IterState Ex) :
    (⟨k, .conv (some m) (fin th) limit, pr⟩ : AlgCfg Ex).run (datasetOf l f) fuel clock st = .error .convergence := by
  rw [run_eq]
  have := (conv_error_iff (⟨k, .conv (some m) (fin th) limit, pr⟩ : AlgCfg Ex)
    (some m) (fin th) limit rfl (datasetOf l f) fuel hfuel st).2
    ⟨mt (numClaims_zero l f).1 hl, _, _, H.init_eq, ?_⟩
  · have e : (datasetOf l f).mats = matsOf l f := rfl
    rw [e] at this
    rw [this]
  · intro i hi
    have hp := pass_at H i H.inv_init
    have hg := getDistance_eq (nodup_sources l) (sources_ne hl) m (cmp (step^[i] init)).1 (cmp (step^[i] init)).2
    rw [sources_toFinset] at hg
    refine ⟨fin (distance m (allSources l) (cmp (step^[i] init)).1 (cmp (step^[i] init)).2), ?_, ?_⟩
    · unfold distNo
      erw [hp]
      simp only
      unfold repS
      rw [hg]
    · simp [hfar i hi]

/-! ### The step on an evenly split dataset -/

theorem even_step {m n : Nat} (he : EvenlySplit l m n) (hc : Contradicting f) (rho gamma : ℝ) {p : Scores S V X} {u : ℝ}
    (hu : ∀ s ∈ allSources l, p.1 s = u) :
    (∀ c ∈ allClaims l, (tfStep l (impVal f) rho gamma p).2 c =
      1 / (1 + Real.exp (gamma * (m * (rho * (n - 1) - 1)) * -Real.log (1 - u)))) ∧
    (∀ s ∈ allSources l, (tfStep l (impVal f) rho gamma p).1 s =
      1 / (1 + Real.exp (gamma * (m * (rho * (n - 1) - 1)) * -Real.log (1 - u)))) := by
  obtain ⟨g, rfl, hg⟩ := hc
  have hsig : ∀ c ∈ allClaims l, ∑ s ∈ sourcesOf l c, -Real.log (1 - p.1 s) = m * -Real.log (1 - u) := by
    intro c hc
    rw [Finset.sum_congr rfl fun s hs => by
      rw [hu s ((mem_allSources l).2 (mem_sources_of_sourcesOf l hs))], Finset.sum_const, (he c hc).1, nsmul_eq_mul]
  have hb : ∀ c ∈ allClaims l, (tfStep l (impVal (some g)) rho gamma p).2 c =
      1 / (1 + Real.exp (gamma * (m * (rho * (n - 1) - 1)) * -Real.log (1 - u))) := by
    intro c hc
    have hsum : ∑ d ∈ (rivals l c).erase c, impVal (some g) c.1 d.2 c.2 * ∑ s ∈ sourcesOf l d, -Real.log (1 - p.1 s) =
        -((n - 1) * (m * -Real.log (1 - u))) := by
      have hcr : c ∈ rivals l c := by simp [rivals, Finset.mem_filter, hc]
      have h1 : ∀ d ∈ (rivals l c).erase c, impVal (some g) c.1 d.2 c.2 * ∑ s ∈ sourcesOf l d, -Real.log (1 - p.1 s) =
          -(m * -Real.log (1 - u)) := by
        intro d hd
        obtain ⟨hne, hd⟩ := Finset.mem_erase.1 hd
        simp only [rivals, Finset.mem_filter] at hd
        rw [hsig d hd.1]
        have : d.2 ≠ c.2 := fun e => hne (Prod.ext hd.2.symm e)
        simp [impVal, hg _ _ _ this]
      rw [Finset.sum_congr rfl h1, Finset.sum_const, Finset.card_erase_of_mem hcr, (he c hc).2, nsmul_eq_mul,
        Nat.cast_sub (by rw [← (he c hc).2]; exact Finset.card_pos.2 ⟨c, hcr⟩)]
      push_cast; ring
    show 1 / (1 + Real.exp (-gamma * (_ + rho * _))) = _
    dsimp only
    rw [hsig c hc, hsum]
    congr 3
    ring
  refine ⟨hb, fun s hs => ?_⟩
  have hn := nClaims_pos l ((mem_allSources l).1 hs)
  show (∑ c ∈ claimsOf l s, (tfStep l (impVal (some g)) rho gamma p).2 c) / nClaims l s = _
  rw [Finset.sum_congr rfl fun c hc => hb c ((mem_allClaims l).2 (mem_claims_of_claimsOf l hc)), Finset.sum_const,
    nsmul_eq_mul, div_eq_iff hn.ne', mul_comm]
  rfl

/-! ### Two phases -/

theorem exp_four : (50 : ℝ) ≤ Real.exp 4 := by
  have h := Real.exp_one_gt_d9
  have : Real.exp 4 = Real.exp 1 ^ 4 := by rw [← Real.exp_nat_mul]; norm_num
  rw [this]
  calc (50 : ℝ) ≤ 2.7182818283 ^ 4 := by norm_num
    _ ≤ _ := pow_le_pow_left₀ (by norm_num) h.le 4

theorem phase_high {k u : ℝ} (hk : 10 ≤ k) (hu : 2 / 5 ≤ u) (h1 : u < 1) :
    0 < 1 / (1 + Real.exp (k * -Real.log (1 - u))) ∧
    k * (1 / (1 + Real.exp (k * -Real.log (1 - u)))) ≤ 1 / 5 := by
  refine ⟨by positivity, ?_⟩
  have hlog : 2 / 5 ≤ -Real.log (1 - u) := by
    have := Real.log_le_sub_one_of_pos (x := 1 - u) (by linarith)
    linarith
  have h2 : Real.exp (4 + (2 / 5 * k - 4)) ≤ Real.exp (k * -Real.log (1 - u)) := by
    refine Real.exp_le_exp.2 ?_
    nlinarith
  rw [Real.exp_add] at h2
  have h3 := Real.add_one_le_exp (2 / 5 * k - 4)
  have h4 : 50 * (2 / 5 * k - 4 + 1) ≤ Real.exp 4 * Real.exp (2 / 5 * k - 4) :=
    mul_le_mul exp_four h3 (by linarith) (Real.exp_pos _).le
  rw [mul_one_div, div_le_iff₀ (by positivity)]
  linarith

theorem phase_low {k u : ℝ} (hk : 10 ≤ k) (hu : 0 < u) (h1 : k * u ≤ 1 / 5) :
    2 / 5 ≤ 1 / (1 + Real.exp (k * -Real.log (1 - u))) ∧ 1 / (1 + Real.exp (k * -Real.log (1 - u))) < 1 := by
  refine ⟨?_, sigmoid_lt _⟩
  have hu2 : u ≤ 1 / 50 := by nlinarith
  have hlog : -Real.log (1 - u) ≤ u * (50 / 49) := by
    have := Real.log_le_sub_one_of_pos (x := (1 - u)⁻¹) (by simp; linarith)
    rw [Real.log_inv] at this
    refine this.trans ?_
    have h0 : 0 < 1 - u := by linarith
    have : (1 - u)⁻¹ - 1 = u / (1 - u) := by field_simp; ring
    rw [this, div_le_iff₀ h0]
    nlinarith
  have h2 : k * -Real.log (1 - u) ≤ 1 / 4 := by
    calc k * -Real.log (1 - u) ≤ k * (u * (50 / 49)) := mul_le_mul_of_nonneg_left hlog (by linarith)
      _ ≤ 1 / 4 := by nlinarith
  have h3 : Real.exp (k * -Real.log (1 - u)) ≤ 3 / 2 := by
    refine (Real.exp_le_exp.2 h2).trans ?_
    have := Real.add_one_le_exp (-(1 / 4 : ℝ))
    rw [Real.exp_neg] at this
    have h5 : Real.exp (1 / 4) ≤ (3 / 4)⁻¹ := by
      rw [le_inv_comm₀ (Real.exp_pos _) (by norm_num)]
      linarith
    linarith [show ((3 : ℝ) / 4)⁻¹ = 4 / 3 by norm_num]
  rw [le_div_iff₀ (by positivity)]
  linarith

/-- High: at least 2/5. -/
def High (u : ℝ) : Prop := 2 / 5 ≤ u ∧ u < 1
/-- Low: positive and small compared with `1 / k`. -/
def Low (k u : ℝ) : Prop := 0 < u ∧ k * u ≤ 1 / 5

theorem even_phase {m n : Nat} (he : EvenlySplit l m n) (hc : Contradicting f) {rho gamma t0 : ℝ}
    (hk : 10 ≤ gamma * (m * (rho * (n - 1) - 1))) (h0 : 2 / 5 ≤ t0) (h1 : t0 < 1) (j : Nat) :
    ∃ u : ℝ, (∀ s ∈ allSources l, (tfAt l f rho gamma t0 j).1 s = u) ∧
      if Even j then High u else Low (gamma * (m * (rho * (n - 1) - 1))) u := by
  induction j with
  | zero => exact ⟨t0, fun _ _ => rfl, by simp only [Even.zero, ↓reduceIte]; exact ⟨h0, h1⟩⟩
  | succ j ih =>
    obtain ⟨u, hu, hphase⟩ := ih
    refine ⟨_, by rw [tf_succ]; exact (even_step he hc rho gamma hu).2, ?_⟩
    by_cases hj : Even j
    · rw [if_pos hj] at hphase
      rw [if_neg (by rw [Nat.even_add_one]; simpa using hj)]
      exact phase_high hk hphase.1 hphase.2
    · rw [if_neg hj] at hphase
      rw [if_pos (by rw [Nat.even_add_one]; exact hj)]
      exact phase_low hk hphase.1 hphase.2

theorem even_swing {m n : Nat} (he : EvenlySplit l m n) (hc : Contradicting f) {rho gamma t0 : ℝ}
    (hk : 10 ≤ gamma * (m * (rho * (n - 1) - 1))) (h0 : 2 / 5 ≤ t0) (h1 : t0 < 1) (j : Nat) {s : S} (hs : s ∈ allSources l) :
    19 / 50 ≤ |(tfAt l f rho gamma t0 (j + 1)).1 s - (tfAt l f rho gamma t0 j).1 s| := by
  obtain ⟨u, hu, pu⟩ := even_phase he hc hk h0 h1 j
  obtain ⟨w, hw, pw⟩ := even_phase he hc hk h0 h1 (j + 1)
  rw [hu s hs, hw s hs]
  have low : ∀ {u}, Low (gamma * (m * (rho * (n - 1) - 1))) u → u ≤ 1 / 50 := by
    rintro u ⟨a, b⟩; nlinarith
  by_cases hj : Even j
  · rw [if_pos hj] at pu
    rw [if_neg (by rw [Nat.even_add_one]; simpa using hj)] at pw
    rw [abs_sub_comm]
    exact le_trans (by linarith [pu.1, low pw]) (le_abs_self _)
  · rw [if_neg hj] at pu
    rw [if_pos (by rw [Nat.even_add_one]; exact hj)] at pw
    exact le_trans (by linarith [pw.1, low pu]) (le_abs_self _)

theorem distance_ge {A : Type} [DecidableEq A] {F : Finset A} {a : A} (ha : a ∈ F) (v w : A → ℝ) {m : Measure} (hm : m ≠ .cosine) :
    |v a - w a| ≤ distance m F v w := by
  cases m with
  | l1 => exact Finset.single_le_sum (f := fun a => |v a - w a|) (fun _ _ => abs_nonneg _) ha
  | l2 =>
    show _ ≤ Real.sqrt (∑ a ∈ F, (v a - w a) ^ 2)
    refine Real.le_sqrt_of_sq_le ?_
    rw [sq_abs]
    exact Finset.single_le_sum (f := fun a => (v a - w a) ^ 2) (fun _ _ => sq_nonneg _) ha
  | lInf => exact le_top (f := fun a => |v a - w a|) ha
  | cosine => exact absurd rfl hm

/-- **C91.** On an evenly split dataset whose values contradict each other, one more iteration of
TruthFinder changes the trust in every source by at least 0.38, however many iterations have been
done. -/
theorem C91_swings (l : List (S × V × X)) (am : Bool) (d : Dataset S V X Ex) (hd : Dataset.mk' l am (finImp f) = .ok d)
    {m n : Nat} (he : EvenlySplit l m n) (hc : Contradicting f) {rho gamma t0 : ℝ}
    (hk : 10 ≤ gamma * (m * (rho * (n - 1) - 1))) (h0 : 2 / 5 ≤ t0) (h1 : t0 < 1) {pr pr' : Option Prior}
    {it it' : IterCfg Ex} {fuel fuel' : Nat} {clock clock' : Nat → Ex} {st st' : IterState Ex} {r r' : Result S V X Ex}
    (hr : AlgCfg.run ⟨.truthFinder (fin rho) (fin gamma) (fin t0), it, pr⟩ d fuel clock st = .ok r)
    (hr' : AlgCfg.run ⟨.truthFinder (fin rho) (fin gamma) (fin t0), it', pr'⟩ d fuel' clock' st' = .ok r')
    {j : Nat} (hn : r.iterations = some j) (hn' : r'.iterations = some (j + 1)) :
    ∀ s ∈ allSources l, ∃ t t' : ℝ, TrustIn r s t ∧ TrustIn r' s t' ∧ 0.38 ≤ |t' - t| := by
  obtain rfl := mk'_ex hd
  have H := tf_implements (l := l) f it pr rho gamma t0 (by linarith) h1
  have H' := tf_implements (l := l) f it' pr' rho gamma t0 (by linarith) h1
  obtain ⟨a, e, rep⟩ := H.run_reports (by simp) hr
  obtain ⟨a', e', rep'⟩ := H'.run_reports (by simp) hr'
  rw [e] at hn
  rw [e'] at hn'
  cases hn
  cases hn'
  intro s hs
  refine ⟨_, _, (rep.trustIn hs).2 rfl, (rep'.trustIn hs).2 rfl, ?_⟩
  have := even_swing he hc hk h0 h1 j hs
  norm_num at this ⊢
  exact this

/-- **C91.** Hence with a `ConvergenceIterator` of one of the measures L1, L2, L∞ and a threshold of at
most 0.38 the run raises `ConvergenceError`, whatever the limit. -/
theorem C91_never_converges (l : List (S × V × X)) (am : Bool) (d : Dataset S V X Ex) (hd : Dataset.mk' l am (finImp f) = .ok d)
    (hl : l ≠ []) {m n : Nat} (he : EvenlySplit l m n) (hc : Contradicting f) {rho gamma t0 th : ℝ}
    (hk : 10 ≤ gamma * (m * (rho * (n - 1) - 1))) (h0 : 2 / 5 ≤ t0) (h1 : t0 < 1) (hth : th ≤ 0.38)
    (ms : Measure) (hms : ms ≠ .cosine) (pr : Option Prior) (limit : Int) (fuel : Nat) (hfuel : limit.toNat < fuel)
    (clock : Nat → Ex) (st : IterState Ex) :
    (⟨.truthFinder (fin rho) (fin gamma) (fin t0), .conv (some ms) (fin th) limit, pr⟩ : AlgCfg Ex).run d fuel clock st =
      .error .convergence := by
  obtain rfl := mk'_ex hd
  refine run_fails_of_ge hl (tf_implements f _ pr rho gamma t0 (by linarith) h1) (fun i _ => ?_) fuel hfuel clock st
  obtain ⟨s, hs⟩ := allSources_nonempty hl
  have := even_swing he hc hk h0 h1 i hs
  rw [tf_succ] at this
  refine le_trans ?_ (this.trans (distance_ge hs _ _ hms))
  norm_num at hth ⊢
  exact hth

/-- **C91.** With the cosine measure (that of the default iterator) and any positive threshold the
same run reports convergence after one iteration. -/
theorem C91_cosine (l : List (S × V × X)) (am : Bool) (d : Dataset S V X Ex) (hd : Dataset.mk' l am (finImp f) = .ok d)
    (hl : l ≠ []) {m n : Nat} (he : EvenlySplit l m n) (hc : Contradicting f) {rho gamma t0 th : ℝ}
    (h0 : 0 < t0) (h1 : t0 < 1) (hth : 0 < th)
    (pr : Option Prior) (limit : Int) (hlim : 1 ≤ limit) (fuel : Nat) (hfuel : 1 < fuel)
    (clock : Nat → Ex) (st : IterState Ex) :
    ∃ r, (⟨.truthFinder (fin rho) (fin gamma) (fin t0), .conv (some .cosine) (fin th) limit, pr⟩ : AlgCfg Ex).run d fuel clock st =
      .ok r ∧ r.iterations = some 1 := by
  obtain rfl := mk'_ex hd
  have hne := allSources_nonempty hl
  have hcard : (0 : ℝ) < (allSources l).card := by exact_mod_cast hne.card_pos
  obtain ⟨r, hr, k, hk, hk1⟩ := run_first_of_lt (by simp) hl
    (fun limit => tf_implements f (.conv (some .cosine) (fin th) limit) pr rho gamma t0 h0.le h1) (N := 0)
    (by
      have hstep := (even_step he hc rho gamma (p := ((fun _ => t0), fun _ => 0)) (u := t0) (fun _ _ => rfl)).2
      generalize hw : 1 / (1 + Real.exp (gamma * (m * (rho * (n - 1) - 1)) * -Real.log (1 - t0))) = w at hstep
      have hwpos : 0 < w := by rw [← hw]; positivity
      show distance .cosine (allSources l) (tfStep l (impVal f) rho gamma ((fun _ => t0), fun _ => 0)).1 (fun _ => t0) < th
      generalize (tfStep l (impVal f) rho gamma ((fun _ => t0), fun _ => 0)).1 = t at hstep
      have e1 : len2 (allSources l) t = Real.sqrt (allSources l).card * w := by
        unfold len2
        rw [Finset.sum_congr rfl fun s hs => by rw [hstep s hs], Finset.sum_const, nsmul_eq_mul,
          Real.sqrt_mul hcard.le, Real.sqrt_sq hwpos.le]
      have e2 : len2 (allSources l) (fun _ => t0) = Real.sqrt (allSources l).card * t0 := by
        unfold len2
        rw [Finset.sum_const, nsmul_eq_mul, Real.sqrt_mul hcard.le, Real.sqrt_sq h0.le]
      have e3 : ∑ s ∈ allSources l, t s * t0 = (allSources l).card * (w * t0) := by
        rw [Finset.sum_congr rfl fun s hs => by rw [hstep s hs], Finset.sum_const, nsmul_eq_mul]
      have hsq := Real.sqrt_pos.2 hcard
      simp only [distance]
      rw [e1, e2, e3, if_neg (by
        rintro (h | h)
        · exact (mul_pos hsq hwpos).ne' h
        · exact (mul_pos hsq h0).ne' h)]
      have : (allSources l).card * (w * t0) / (Real.sqrt (allSources l).card * w * (Real.sqrt (allSources l).card * t0)) = 1 := by
        rw [div_eq_one_iff_eq (mul_pos (mul_pos hsq hwpos) (mul_pos hsq h0)).ne']
        have := Real.mul_self_sqrt hcard.le
        linear_combination (-w * t0) * this
      rw [this]
      simpa [clamp] using hth) limit fuel clock st hlim hfuel
  obtain rfl : k = 0 := by omega
  exact ⟨r, hr, hk1⟩

/-! ### Cases -/

/-- `n` sources, each with its own value for the one variable. -/
def allDiffer (n : Nat) : List (Nat × Nat × Nat) := (List.range n).map fun i => (i, 0, i)

theorem allDiffer_noRepeats (n : Nat) : NoRepeats (allDiffer n) := by
  unfold NoRepeats allDiffer
  simp only [List.map_map, Function.comp_def]
  exact List.nodup_range.map fun a b h => (Prod.mk.inj h).1

theorem allDiffer_split (n : Nat) : EvenlySplit (allDiffer n) 1 n := by
  have hrec := recorded_eq_self (allDiffer_noRepeats n)
  have hall : allClaims (allDiffer n) = (Finset.range n).image fun i => (0, i) := by
    unfold allClaims
    rw [hrec]
    ext c
    simp [allDiffer]
  intro c hc
  rw [hall] at hc
  obtain ⟨i, hi, rfl⟩ := Finset.mem_image.1 hc
  have hi := Finset.mem_range.1 hi
  constructor
  · have : sourcesOf (allDiffer n) (0, i) = {i} := by
      ext s
      rw [Finset.mem_singleton, mem_sourcesOf, hrec]
      simp only [allDiffer, List.mem_map, List.mem_range, Prod.mk.injEq]
      constructor
      · rintro ⟨a, -, rfl, -, rfl⟩; rfl
      · rintro rfl; exact ⟨s, hi, rfl, trivial, rfl⟩
    rw [this, Finset.card_singleton]
  · have : rivals (allDiffer n) (0, i) = (Finset.range n).image fun i => (0, i) := by
      unfold rivals
      rw [hall, Finset.filter_eq_self]
      intro d hd
      obtain ⟨k, -, rfl⟩ := Finset.mem_image.1 hd
      rfl
    rw [this, Finset.card_image_of_injective _ (fun a b h => (Prod.mk.inj h).2), Finset.card_range]

theorem always_contradicting : Contradicting (V := Nat) (X := Nat) (some fun _ _ _ => some (-1)) :=
  ⟨_, rfl, fun _ _ _ _ => rfl⟩

/-- With the default parameters and (allDiffer 70) sources TruthFinder does not settle. -/
example (limit : Nat) (clock : Nat → Ex) : ∃ d : Dataset Nat Nat Nat Ex,
    Dataset.mk' (allDiffer 70) false (finImp (some fun _ _ _ => some (-1))) = .ok d ∧
    AlgCfg.run ⟨.truthFinder (fin 0.5) (fin 0.3) (fin 0.9), .conv (some .l2) (fin 0.0001) limit, none⟩ d (limit + 1) clock {} =
      .error .convergence ∧
    ∃ r, AlgCfg.run ⟨.truthFinder (fin 0.5) (fin 0.3) (fin 0.9), .conv (some .cosine) (fin 0.001) 1000000, none⟩ d 2 clock {} = .ok r ∧
      r.iterations = some 1 := by
  obtain ⟨d, hd⟩ : ∃ d : Dataset Nat Nat Nat Ex, Dataset.mk' (allDiffer 70) false (finImp (some fun _ _ _ => some (-1))) = .ok d := by
    refine ⟨_, (mk'_ok_iff _ ex_one_ne_zero false _ _).2 ⟨rfl, .inr (allDiffer_noRepeats 70), ?_⟩⟩
    rintro ⟨c, -, e, -, -, -, x, hx, hb⟩
    cases hx
    simp [badImp] at hb
    norm_num at hb
  have hk : (10 : ℝ) ≤ 0.3 * ((1 : Nat) * (0.5 * ((70 : Nat) - 1) - 1)) := by norm_num
  exact ⟨d, hd, C91_never_converges (allDiffer 70) false d hd (by decide) (allDiffer_split 70) always_contradicting hk (by norm_num)
    (by norm_num) (by norm_num) .l2 nofun none limit _ (by simp) clock {},
    C91_cosine (allDiffer 70) false d hd (by decide) (allDiffer_split 70) always_contradicting (by norm_num) (by norm_num) (by norm_num)
      none 1000000 (by norm_num) 2 (by norm_num) clock {}⟩

end TD
