import Verif.Lemmas.TruthFinderGap
import Verif.Props.TruthFinderPrecision
import Verif.Props.Runs
import Verif.Props.Range
import Verif.Props.Precision
/-!
# TruthFinder in double precision stays close to the exact scores (C112)
-/

namespace TD
open Spec Double
attribute [-instance] instBEqProd

variable {S V X : Type} [DecidableEq S] [DecidableEq V] [DecidableEq X] {ω : Platform}
local notation "D" => FP (Rounding.binary64 ω)

/-- The bound on the errors after `n` iterations. -/
noncomputable def tfErr (a b : Nat) (g δ : ℝ) (n : Nat) : ℝ :=
  (a + b + 23) / (2 ^ 50 * δ) * ∑ i ∈ Finset.range n, (g * b) ^ i

theorem tfErr_succ (a b : Nat) (g δ : ℝ) (n : Nat) :
    tfErr a b g δ (n + 1) = g * b * tfErr a b g δ n + 4 * ((a + b + 23) / 2 ^ 52) / δ := by
  unfold tfErr
  rw [Finset.sum_range_succ', pow_zero, mul_add, mul_one]
  congr 1
  · rw [Finset.mul_sum, Finset.mul_sum, Finset.mul_sum]
    refine Finset.sum_congr rfl fun i _ => ?_
    rw [pow_succ]; ring
  · rw [mul_div_assoc', div_div, div_eq_div_iff_comm]
    by_cases hδ : δ = 0
    · simp [hδ]
    · field_simp
      norm_num

theorem tfErr_nonneg (a b : Nat) {g δ : ℝ} (hg : 0 ≤ g) (hδ : 0 < δ) (n : Nat) : 0 ≤ tfErr a b g δ n := by
  unfold tfErr
  positivity

theorem tfErr_mono (a b : Nat) {g δ : ℝ} (hg : 0 ≤ g) (hδ : 0 < δ) {m n : Nat} (h : m ≤ n) : tfErr a b g δ m ≤ tfErr a b g δ n := by
  unfold tfErr
  refine mul_le_mul_of_nonneg_left ?_ (by positivity)
  exact Finset.sum_le_sum_of_subset_of_nonneg (Finset.range_mono h) fun i _ _ => by positivity

theorem tfErr_le (a b : Nat) {g δ : ℝ} (hg0 : 0 ≤ g) (hδ : 0 < δ) (hgb : g * b < 1) (n : Nat) :
    (a + b + 23) / (2 ^ 50 * δ) * ∑ i ∈ Finset.range n, (g * b) ^ i ≤ (a + b + 23) / (2 ^ 50 * δ * (1 - g * b)) := by
  have hgb0 : 0 ≤ g * b := by positivity
  have hgeo : ∑ i ∈ Finset.range n, (g * b) ^ i ≤ 1 / (1 - g * b) := by
    rw [geom_sum_eq hgb.ne, le_div_iff₀ (by linarith), ← neg_div_neg_eq, neg_sub, neg_sub, div_mul_cancel₀ _ (by linarith)]
    have : 0 ≤ (g * b) ^ n := by positivity
    linarith
  refine (mul_le_mul_of_nonneg_left hgeo (by positivity)).trans_eq ?_
  rw [div_mul_div_comm, mul_one]

theorem tfExact_succ (l : List (S × V × X)) (g t0 : ℝ) (n : Nat) :
    tfExact l g t0 (n + 1) = tfStep l (fun _ _ _ => 0) 0 g (tfExact l g t0 n) := Function.iterate_succ_apply' _ _ _

/-- The exact scores. -/
theorem tfExact_range {l : List (S × V × X)} {g t0 : ℝ} (hg : 0 ≤ g) (h0 : 0 ≤ t0) (h1 : t0 < 1) (n : Nat) :
    ∀ s ∈ allSources l, 0 ≤ (tfExact l g t0 n).1 s ∧ (tfExact l g t0 n).1 s < 1 := by
  induction n with
  | zero => exact fun s _ => ⟨h0, h1⟩
  | succ n ih =>
    intro s hs
    rw [tfExact_succ]
    obtain ⟨eb, et⟩ := tfStep_plain l g (tfExact l g t0 n)
    have hs' := (mem_allSources l).1 hs
    have hpos : (0 : ℝ) < (claimsOf l s).card := by exact_mod_cast (claimsOf_nonempty l hs').card_pos
    rw [et]
    constructor
    · refine div_nonneg (Finset.sum_nonneg fun c _ => ?_) hpos.le
      rw [eb]
      positivity
    · rw [div_lt_one hpos]
      refine (Finset.sum_lt_sum_of_nonempty (g := fun _ => (1 : ℝ)) (claimsOf_nonempty l hs') (fun c _ => ?_)).trans_eq (by simp)
      rw [eb, div_lt_one (by positivity)]
      have := Real.exp_pos (-(g * ∑ s ∈ sourcesOf l c, -Real.log (1 - (tfExact l g t0 n).1 s)))
      linarith

/-- The logarithms of the distances from 1. -/
def GapClose (l : List (S × V × X)) (r : Result S V X D) (p : Scores S V X) (E : ℝ) : Prop :=
  ∀ s ∈ allSources l, ∃ t, HasTrust r s (FP.fin t) ∧ t < 1 ∧ |Real.log (1 - t) - Real.log (1 - p.1 s)| ≤ E

theorem gap_next {l : List (S × V × X)} {a b : Nat} (ha : ∀ s, (claimsOf l s).card ≤ a) (hb : ∀ c, (sourcesOf l c).card ≤ b)
    {g t0 δ : ℝ} (hg : 0 ≤ g) (h0 : 0 ≤ t0) (h1 : t0 < 1) (hδ : 0 < δ) (hδ1 : δ ≤ 1) {n : Nat} {r r' : Result S V X D}
    (hacc : TfAccurate l g r r') (hk : tfErr a b g δ (n + 1) ≤ 1 / 2) (hgap : GapClose l r (tfExact l g t0 n) (tfErr a b g δ n)) :
    AbsClose l r' (tfExact l g t0 (n + 1)) (tfErr a b g δ (n + 1)) ∧
    ((∀ s ∈ allSources l, (tfExact l g t0 (n + 1)).1 s ≤ 1 - δ) → GapClose l r' (tfExact l g t0 (n + 1)) (tfErr a b g δ (n + 1))) := by
  have hE := tfErr_nonneg a b hg hδ n
  have hF0 : 0 ≤ g * b * tfErr a b g δ n := by positivity
  rw [tfErr_succ] at hk ⊢
  have hε : (0 : ℝ) ≤ (a + b + 23) / 2 ^ 52 := by positivity
  have hεδ : ((a : ℝ) + b + 23) / 2 ^ 52 ≤ 4 * ((a + b + 23) / 2 ^ 52) / δ := by
    rw [le_div_iff₀ hδ]
    nlinarith
  have hF : g * b * tfErr a b g δ n ≤ 1 / 2 := by linarith
  choose! t ht using hgap
  have hr := tfExact_range (l := l) hg h0 h1 n
  obtain ⟨hB, hT⟩ := tf_gap ha hb hg hE hF hacc (p := tfExact l g t0 n) (t := t)
    (fun s hs => ⟨(ht s hs).1, (ht s hs).2.1, (hr s hs).2, (ht s hs).2.2⟩) fun s hs => (hr s hs).1
  rw [← tfExact_succ] at hB hT
  refine ⟨⟨fun s hs => ?_, fun c hc => ?_⟩, fun hx s hs => ?_⟩
  · obtain ⟨y, m, k1, k2, k3, k4, k5, k6⟩ := hT s hs
    refine ⟨y, k1, ?_⟩
    have k7 := gap_abs k3 k4 hF0 hF k5 k6
    have e : y - (tfExact l g t0 (n + 1)).1 s = -((1 - y - m) + (m - (1 - (tfExact l g t0 (n + 1)).1 s))) := by ring
    rw [e, abs_neg]
    refine (abs_add_le _ _).trans ?_
    linarith
  · obtain ⟨y, k1, k2⟩ := hB c hc
    refine ⟨y, k1, k2.trans ?_⟩
    have : ((b : ℝ) + 21) / 2 ^ 52 ≤ (a + b + 23) / 2 ^ 52 := by
      have : (0 : ℝ) ≤ a := Nat.cast_nonneg a
      exact div_le_div_of_nonneg_right (by linarith) (by positivity)
    linarith
  · obtain ⟨y, m, k1, k2, k3, k4, k5, k6⟩ := hT s hs
    obtain ⟨k7, k8⟩ := gap_log hδ (u := 1 - (tfExact l g t0 (n + 1)).1 s) (by linarith [hx s hs]) hF0 hε hk k5 k6 k2
    exact ⟨y, k1, by linarith, k8⟩

/-- All partial results. -/
theorem gap_chain {l : List (S × V × X)} {a b : Nat} (ha : ∀ s, (claimsOf l s).card ≤ a) (hb : ∀ c, (sourcesOf l c).card ≤ b)
    {g t0 δ : ℝ} (hg : 0 ≤ g) (h0 : 0 ≤ t0) (h1 : t0 < 1) (hδ : 0 < δ) (hδ1 : δ ≤ 1) {rs : List (Result S V X D)}
    (hinit : ∀ r, rs[0]? = some r → (∀ s ∈ allSources l, HasTrust r s (FP.fin t0)) ∧ ∀ c ∈ allClaims l, HasBelief r c (FP.fin 0))
    (hstep : ∀ (i : Nat) (r r' : Result S V X D), rs[i]? = some r → rs[i + 1]? = some r' → TfAccurate l g r r') :
    ∀ n r, rs[n]? = some r → tfErr a b g δ n ≤ 1 / 2 → (∀ j < n, ∀ s ∈ allSources l, (tfExact l g t0 j).1 s ≤ 1 - δ) →
      AbsClose l r (tfExact l g t0 n) (tfErr a b g δ n) ∧
      ((∀ s ∈ allSources l, (tfExact l g t0 n).1 s ≤ 1 - δ) → GapClose l r (tfExact l g t0 n) (tfErr a b g δ n)) := by
  intro n
  induction n with
  | zero =>
    intro r hr _ _
    obtain ⟨i1, i2⟩ := hinit r hr
    have hE : tfErr a b g δ 0 = 0 := by simp [tfErr]
    rw [hE]
    refine ⟨⟨fun s hs => ⟨t0, i1 s hs, ?_⟩, fun c hc => ⟨0, i2 c hc, ?_⟩⟩, fun _ s hs => ⟨t0, i1 s hs, h1, ?_⟩⟩
    · simp [tfExact]
    · simp [tfExact]
    · simp [tfExact]
  | succ n ih =>
    intro r hr hk hx
    have hlen : n < rs.length := by
      have := (List.getElem?_eq_some_iff.1 hr).1
      omega
    have hprev : rs[n]? = some rs[n] := List.getElem?_eq_getElem hlen
    obtain ⟨-, hgap⟩ := ih _ hprev ((tfErr_mono a b hg hδ (Nat.le_succ n)).trans hk) fun j hj => hx j (by omega)
    exact gap_next ha hb hg h0 h1 hδ hδ1 (hstep n _ _ hprev hr) hk (hgap (hx n (by omega)))

/-- **C112.** TruthFinder in double precision, without implications, dampening factor `g` between 0 and 1, initial trust at least 1/4; sources
make at most `a` claims, claims have at most `b` sources. As long as the exact trust scores stay below `1 - δ` (before iteration `n`),
and the bound below does not exceed 1/2, all scores after `n` iterations are numbers that differ from the exact ones by at most
`(a + b + 23) / (2 ^ 50 δ) * (1 + g b + ... + (g b) ^ (n - 1))`. -/
theorem C112_follows (l : List (S × V × X)) (am : Bool) (d : Dataset S V X D) (h : Dataset.mk' l am none = .ok d)
    (hS : (allSources l).card ≤ 2 ^ 46) (hC : (allClaims l).card ≤ 2 ^ 46)
    {a b : Nat} (ha : ∀ s, (claimsOf l s).card ≤ a) (hb : ∀ c, (sourcesOf l c).card ≤ b)
    (rho : D) (g : ℝ) (hg0 : 0 ≤ g) (hg1 : g ≤ 1) (t0 : ℝ) (ht : IsDouble t0) (ht0 : 1 / 4 ≤ t0)
    {δ : ℝ} (hδ : 0 < δ) (ht1 : t0 ≤ 1 - δ) (it : IterCfg D) (pr : Option Prior)
    (fuel : Nat) (clock : Nat → D) (st : IterState D) (rs : List (Result S V X D))
    (hrs : (⟨.truthFinder rho (FP.fin g) (FP.fin t0), it, pr⟩ : AlgCfg D).runIter d fuel clock st = .ok rs)
    (n : Nat) (r : Result S V X D) (hn : rs[n]? = some r)
    (hx : ∀ j, 1 ≤ j → j < n → ∀ s ∈ allSources l, (tfExact l g t0 j).1 s ≤ 1 - δ)
    (hk : (a + b + 23) / (2 ^ 50 * δ) * ∑ i ∈ Finset.range n, (g * b) ^ i ≤ 1 / 2) :
    AbsClose l r (tfExact l g t0 n) ((a + b + 23) / (2 ^ 50 * δ) * ∑ i ∈ Finset.range n, (g * b) ^ i) := by
  obtain ⟨-, h1, h2⟩ := C111_truth_finder l am d h hS hC rho g hg0 hg1 t0 ht ht0 it pr fuel clock st rs hrs
  refine (gap_chain ha hb hg0 (by linarith) (by linarith) hδ (by linarith) h1 h2 n r hn hk ?_).1
  intro j hj s hs
  rcases j with _ | j
  · exact ht1
  · exact hx _ (by omega) hj s hs

/-- The result of `run`. -/
theorem follows_run (l : List (S × V × X)) (am : Bool) (d : Dataset S V X D) (h : Dataset.mk' l am none = .ok d)
    (hS : (allSources l).card ≤ 2 ^ 46) (hC : (allClaims l).card ≤ 2 ^ 46)
    {a b : Nat} (ha : ∀ s, (claimsOf l s).card ≤ a) (hb : ∀ c, (sourcesOf l c).card ≤ b)
    (rho : D) (g : ℝ) (hg0 : 0 ≤ g) (hg1 : g ≤ 1) (t0 : ℝ) (ht : IsDouble t0) (ht0 : 1 / 4 ≤ t0)
    {δ : ℝ} (hδ : 0 < δ) (ht1 : t0 ≤ 1 - δ) (it : IterCfg D) (pr : Option Prior)
    (fuel : Nat) (clock : Nat → D) (st : IterState D) (r : Result S V X D)
    (hr : (⟨.truthFinder rho (FP.fin g) (FP.fin t0), it, pr⟩ : AlgCfg D).run d fuel clock st = .ok r)
    (n : Nat) (hn : r.iterations = some n)
    (hx : ∀ j, 1 ≤ j → j < n → ∀ s ∈ allSources l, (tfExact l g t0 j).1 s ≤ 1 - δ)
    (hk : (a + b + 23) / (2 ^ 50 * δ) * ∑ i ∈ Finset.range n, (g * b) ^ i ≤ 1 / 2) :
    AbsClose l r (tfExact l g t0 n) ((a + b + 23) / (2 ^ 50 * δ) * ∑ i ∈ Finset.range n, (g * b) ^ i) ∧
    ((∀ s ∈ allSources l, (tfExact l g t0 n).1 s ≤ 1 - δ) → GapClose l r (tfExact l g t0 n) (tfErr a b g δ n)) := by
  cases hrs : (⟨.truthFinder rho (FP.fin g) (FP.fin t0), it, pr⟩ : AlgCfg D).runIter d fuel clock st with
  | error e =>
    have := (C26_same_exception one_ne_zero_fp l am none d h _ fuel clock clock st st e).1 hrs
    rw [hr] at this
    cases this
  | ok rs =>
    obtain ⟨last, e1, e2, e3, -⟩ := C26_last_partial_result one_ne_zero_fp l am none d h _ (by simp) fuel clock clock st st rs r hrs hr (.inl rfl)
    obtain ⟨m, e5, e6, -⟩ := C26_numbering one_ne_zero_fp l am none d h _ fuel clock clock st st rs r hrs hr
    rw [hn] at e5
    cases e5
    have e6 : rs.length = n + 1 := e6
    have e7 : rs[n]? = some last := by
      rw [← e1, List.getLast?_eq_getElem?, e6]
      rfl
    obtain ⟨-, h1, h2⟩ := C111_truth_finder l am d h hS hC rho g hg0 hg1 t0 ht ht0 it pr fuel clock st rs hrs
    have key := gap_chain ha hb hg0 (by linarith) (by linarith) hδ (by linarith) h1 h2 n last e7 hk (by
      intro j hj s hs
      rcases j with _ | j
      · exact ht1
      · exact hx _ (by omega) hj s hs)
    unfold AbsClose GapClose HasTrust HasBelief at key ⊢
    rw [e2, e3] at key
    exact key

/-- **C112.** The same for the result of `run`, if it took `n` iterations. -/
theorem C112_run (l : List (S × V × X)) (am : Bool) (d : Dataset S V X D) (h : Dataset.mk' l am none = .ok d)
    (hS : (allSources l).card ≤ 2 ^ 46) (hC : (allClaims l).card ≤ 2 ^ 46)
    {a b : Nat} (ha : ∀ s, (claimsOf l s).card ≤ a) (hb : ∀ c, (sourcesOf l c).card ≤ b)
    (rho : D) (g : ℝ) (hg0 : 0 ≤ g) (hg1 : g ≤ 1) (t0 : ℝ) (ht : IsDouble t0) (ht0 : 1 / 4 ≤ t0)
    {δ : ℝ} (hδ : 0 < δ) (ht1 : t0 ≤ 1 - δ) (it : IterCfg D) (pr : Option Prior)
    (fuel : Nat) (clock : Nat → D) (st : IterState D) (r : Result S V X D)
    (hr : (⟨.truthFinder rho (FP.fin g) (FP.fin t0), it, pr⟩ : AlgCfg D).run d fuel clock st = .ok r)
    (n : Nat) (hn : r.iterations = some n)
    (hx : ∀ j, 1 ≤ j → j < n → ∀ s ∈ allSources l, (tfExact l g t0 j).1 s ≤ 1 - δ)
    (hk : (a + b + 23) / (2 ^ 50 * δ) * ∑ i ∈ Finset.range n, (g * b) ^ i ≤ 1 / 2) :
    AbsClose l r (tfExact l g t0 n) ((a + b + 23) / (2 ^ 50 * δ) * ∑ i ∈ Finset.range n, (g * b) ^ i) := by
  exact (follows_run l am d h hS hC ha hb rho g hg0 hg1 t0 ht ht0 hδ ht1 it pr fuel clock st r hr n hn hx hk).1

/-- Without much amplification, the exact trust scores stay away from 1. -/
theorem tfExact_below {l : List (S × V × X)} {b : Nat} (hb : ∀ c, (sourcesOf l c).card ≤ b) {g t0 δ : ℝ} (hg : 0 ≤ g) (h0 : 0 ≤ t0)
    (hδ : 0 < δ) (h1 : t0 ≤ 1 - δ) (hδ1 : δ ^ (1 - g * b) ≤ 1 / 2) (n : Nat) :
    ∀ s ∈ allSources l, (tfExact l g t0 n).1 s ≤ 1 - δ := by
  induction n with
  | zero => exact fun _ _ => h1
  | succ n ih =>
    intro s hs
    have hs' := (mem_allSources l).1 hs
    have hpos : (0 : ℝ) < (claimsOf l s).card := by exact_mod_cast (claimsOf_nonempty l hs').card_pos
    rw [tfExact_succ]
    obtain ⟨eb, et⟩ := tfStep_plain l g (tfExact l g t0 n)
    have hr := tfExact_range (l := l) hg h0 (by linarith) n
    rw [et, div_le_iff₀ hpos, mul_comm]
    refine (Finset.sum_le_card_nsmul _ _ (1 - δ) fun c hc => ?_).trans_eq (nsmul_eq_mul _ _)
    rw [eb]
    have hlogδ : Real.log δ ≤ 0 := Real.log_nonpos hδ.le (by linarith)
    have hsum : g * ∑ s ∈ sourcesOf l c, -Real.log (1 - (tfExact l g t0 n).1 s) ≤ g * b * -Real.log δ := by
      rw [mul_assoc]
      refine mul_le_mul_of_nonneg_left ?_ hg
      refine (Finset.sum_le_card_nsmul _ _ (-Real.log δ) fun s hs => ?_).trans ?_
      · have hs1 := ih s ((mem_allSources l).2 (mem_sources_of_sourcesOf l hs))
        have := Real.log_le_log hδ (by linarith : δ ≤ 1 - (tfExact l g t0 n).1 s)
        linarith
      · rw [nsmul_eq_mul]
        have : ((sourcesOf l c).card : ℝ) ≤ b := by exact_mod_cast hb c
        exact mul_le_mul_of_nonneg_right this (by linarith)
    set x := g * ∑ s ∈ sourcesOf l c, -Real.log (1 - (tfExact l g t0 n).1 s) with hxdef
    have hx0 : 0 ≤ x := by
      refine mul_nonneg hg (Finset.sum_nonneg fun s hs => ?_)
      obtain ⟨r1, r2⟩ := hr s ((mem_allSources l).2 (mem_sources_of_sourcesOf l hs))
      have := Real.log_le_sub_one_of_pos (by linarith : 0 < 1 - (tfExact l g t0 n).1 s)
      linarith
    have e := one_sub_sig x
    have h2 : δ ≤ 1 / (1 + Real.exp x) := by
      have hex : Real.exp x ≤ δ ^ (-(g * b)) := by
        rw [Real.rpow_def_of_pos hδ]
        exact Real.exp_le_exp.2 (by linarith)
      have h3 := Real.one_le_exp hx0
      have h4 : δ * δ ^ (-(g * b)) ≤ 1 / 2 := by
        rw [← Real.rpow_one_add' hδ.le]
        · rwa [← sub_eq_add_neg]
        · intro h
          rw [← sub_eq_add_neg] at h
          rw [h, Real.rpow_zero] at hδ1
          norm_num at hδ1
      rw [le_div_iff₀ (by positivity)]
      have h5 : δ * Real.exp x ≤ 1 / 2 := (mul_le_mul_of_nonneg_left hex hδ.le).trans h4
      have h6 : δ ≤ δ * Real.exp x := le_mul_of_one_le_right hδ.le h3
      linarith
    linarith

/-- **C112.** If moreover `g b < 1`, this holds for any number of iterations, with one bound for all of them: it is enough that
`δ ≤ 1 - t0`, `δ ^ (1 - g b) ≤ 1/2`, and that the bound `(a + b + 23) / (2 ^ 50 δ (1 - g b))` does not exceed 1/2. -/
theorem C112_always (l : List (S × V × X)) (am : Bool) (d : Dataset S V X D) (h : Dataset.mk' l am none = .ok d)
    (hS : (allSources l).card ≤ 2 ^ 46) (hC : (allClaims l).card ≤ 2 ^ 46)
    {a b : Nat} (ha : ∀ s, (claimsOf l s).card ≤ a) (hb : ∀ c, (sourcesOf l c).card ≤ b)
    (rho : D) (g : ℝ) (hg0 : 0 ≤ g) (hg1 : g ≤ 1) (t0 : ℝ) (ht : IsDouble t0) (ht0 : 1 / 4 ≤ t0)
    {δ : ℝ} (hδ : 0 < δ) (ht1 : t0 ≤ 1 - δ) (hgb : g * b < 1) (hδ1 : δ ^ (1 - g * b) ≤ 1 / 2)
    (hk : (a + b + 23) / (2 ^ 50 * δ * (1 - g * b)) ≤ 1 / 2) (it : IterCfg D) (pr : Option Prior)
    (fuel : Nat) (clock : Nat → D) (st : IterState D) (r : Result S V X D)
    (hr : (⟨.truthFinder rho (FP.fin g) (FP.fin t0), it, pr⟩ : AlgCfg D).run d fuel clock st = .ok r)
    (n : Nat) (hn : r.iterations = some n) :
    AbsClose l r (tfExact l g t0 n) ((a + b + 23) / (2 ^ 50 * δ * (1 - g * b))) := by
  have hle := tfErr_le a b hg0 hδ hgb n
  obtain ⟨k1, k2⟩ := C112_run l am d h hS hC ha hb rho g hg0 hg1 t0 ht ht0 hδ ht1 it pr fuel clock st r hr n hn
    (fun j _ _ => tfExact_below hb hg0 (by linarith) hδ ht1 hδ1 j) (hle.trans hk)
  refine ⟨fun s hs => ?_, fun c hc => ?_⟩
  · obtain ⟨y, y1, y2⟩ := k1 s hs
    exact ⟨y, y1, y2.trans hle⟩
  · obtain ⟨y, y1, y2⟩ := k2 c hc
    exact ⟨y, y1, y2.trans hle⟩

/-- With a `FixedIterator`, TruthFinder without implications ends after at most that many iterations, with fewer only if a trust score
is exactly 1. -/
theorem tf_fixed_ends (l : List (S × V × X)) (hl : l ≠ []) (rho gamma t0 : D) (pr : Option Prior) (K fuel : Nat) (hf : K < fuel)
    (clock : Nat → D) (st : IterState D) :
    ∃ r n, (⟨.truthFinder rho gamma t0, .fixed K, pr⟩ : AlgCfg D).run (datasetOf l none) fuel clock st = .ok r ∧ r.iterations = some n ∧ n ≤ K ∧
      (n < K → ∃ s ∈ allSources l, ∃ x : D, HasTrust r s x ∧ Arith.eq x (Arith.ofNat 1) = true) := by
  have hrep : List.replicate (matsOf l (none : Option (V → X → X → Option D))).numSources t0 = (sources l).map fun _ => t0 := by
    rw [List.map_const']; rfl
  have key : ∀ j, j ≤ K → ∃ n st1 T b L, Steps (.fixed K) (Kind.body (.truthFinder rho gamma t0) (matsOf l none)) {}
      (List.replicate (matsOf l (none : Option (V → X → X → Option D))).numSources t0)
      (zeros (matsOf l (none : Option (V → X → X → Option D))).numClaims) n st1 ((sources l).map T) b L ∧
      (n = j ∨ n < j ∧ ((sources l).map T).any (fun t => Arith.eq t (Arith.ofNat 1)) = true) := by
    intro j
    induction j with
    | zero => exact fun _ => ⟨0, _, fun _ => t0, _, _, by rw [hrep]; exact .refl _ _ _, .inl rfl⟩
    | succ j ih =>
      intro hj
      obtain ⟨n, st1, T, b, L, hs, hn⟩ := ih (by omega)
      by_cases hany : ((sources l).map T).any (fun t => Arith.eq t (Arith.ofNat 1)) = true
      · exact ⟨n, st1, T, b, L, hs, .inr ⟨by omega, hany⟩⟩
      · obtain rfl : n = j := hn.resolve_right fun h => hany h.2
        have hb := tfBody_labels l rho gamma T b
        rw [if_neg hany] at hb
        have hcount := hs.itCount
        have hone := Steps.cons (it := .fixed K) (body := Kind.body (.truthFinder rho gamma t0) (matsOf l none)) (st := st1)
          (t := (sources l).map T) (b := b) (by
            simp only [IterCfg.finished, Except.ok.injEq, decide_eq_false_iff_not]
            simp only [zero_add] at hcount
            omega) hb rfl (.refl _ _ _)
        exact ⟨n + 1, _, _, _, _, hs.append hone, .inl rfl⟩
  obtain ⟨n, st1, T, b, L, hs, hn⟩ := key K le_rfl
  have hcount := hs.itCount
  simp only [zero_add] at hcount
  have hstop : Stops (.fixed K) (Kind.body (.truthFinder rho gamma t0) (matsOf l none)) st1 ((sources l).map T) b := by
    rcases hn with rfl | ⟨hn, hany⟩
    · refine .inl ?_
      simp only [IterCfg.finished, Except.ok.injEq, decide_eq_true_eq]
      omega
    · refine .inr ⟨?_, ?_⟩
      · simp only [IterCfg.finished, Except.ok.injEq, decide_eq_false_iff_not]
        omega
      · have hb := tfBody_labels l rho gamma T b
        rw [if_pos hany] at hb
        exact hb
  have hex := (exec_ok_iff (⟨.truthFinder rho gamma t0, .fixed K, pr⟩ : AlgCfg D) (matsOf l none) fuel st ⟨_, _, _, _⟩).2
    ⟨fun e => hl ((numClaims_zero l none).1 e), _, _, n, _, _, _, _, rfl, by omega, hs, hstop, finish_other (by simp) _ _, rfl, rfl⟩
  refine ⟨_, n, by rw [run_eq, hex], rfl, by omega, fun h => ?_⟩
  obtain ⟨hn, hany⟩ := hn.resolve_left (by omega)
  obtain ⟨x, hx, e⟩ := List.any_eq_true.1 hany
  obtain ⟨s, hs', rfl⟩ := List.mem_map.1 hx
  exact ⟨s, (mem_allSources l).2 hs', T s, by unfold HasTrust; rw [trust_resultOf, if_pos hs'], e⟩

/-- **C112.** In that case TruthFinder with a `FixedIterator` performs all its iterations, and its result is as accurate. -/
theorem C112_fixed (l : List (S × V × X)) (hl : l ≠ []) (am : Bool) (d : Dataset S V X D) (h : Dataset.mk' l am none = .ok d)
    (hS : (allSources l).card ≤ 2 ^ 46) (hC : (allClaims l).card ≤ 2 ^ 46)
    {a b : Nat} (ha : ∀ s, (claimsOf l s).card ≤ a) (hb : ∀ c, (sourcesOf l c).card ≤ b)
    (rho : D) (g : ℝ) (hg0 : 0 ≤ g) (hg1 : g ≤ 1) (t0 : ℝ) (ht : IsDouble t0) (ht0 : 1 / 4 ≤ t0)
    {δ : ℝ} (hδ : 0 < δ) (ht1 : t0 ≤ 1 - δ) (hgb : g * b < 1) (hδ1 : δ ^ (1 - g * b) ≤ 1 / 2)
    (hk : (a + b + 23) / (2 ^ 50 * δ * (1 - g * b)) ≤ 1 / 2) (pr : Option Prior)
    (K fuel : Nat) (hf : K < fuel) (clock : Nat → D) (st : IterState D) :
    ∃ r, (⟨.truthFinder rho (FP.fin g) (FP.fin t0), .fixed K, pr⟩ : AlgCfg D).run d fuel clock st = .ok r ∧ r.iterations = some K ∧
      AbsClose l r (tfExact l g t0 K) ((a + b + 23) / (2 ^ 50 * δ * (1 - g * b))) := by
  have hd := ((mk'_ok_iff l one_ne_zero_fp am none d).1 h).1
  subst hd
  obtain ⟨r, n, h1, h2, h3, h4⟩ := tf_fixed_ends l hl rho (FP.fin g) (FP.fin t0) pr K fuel hf clock st
  have below := tfExact_below (l := l) hb hg0 (by linarith : 0 ≤ t0) hδ ht1 hδ1
  obtain rfl : n = K := by
    by_contra hne
    obtain ⟨s, hs, x, hx, e⟩ := h4 (by omega)
    have key := (follows_run l am _ h hS hC ha hb rho g hg0 hg1 t0 ht ht0 hδ ht1 (.fixed K) pr fuel clock st r h1 n h2
      (fun j _ _ => below j) ((tfErr_le a b hg0 hδ hgb n).trans hk)).2 (below n)
    obtain ⟨t, k1, k2, -⟩ := key s hs
    have : x = FP.fin t := by
      unfold HasTrust at hx k1
      rw [hx] at k1
      exact Option.some.inj k1
    rw [this, FP.one_eq] at e
    have e' : FNum.eq (.fin t) (.fin 1) = true := e
    simp [FNum.eq, FNum.toEReal] at e'
    linarith
  exact ⟨r, h1, h2, C112_always l am _ h hS hC ha hb rho g hg0 hg1 t0 ht ht0 hδ ht1 hgb hδ1 hk (.fixed n) pr fuel clock st r h1 n h2⟩

/-- The result of `run` has exactly the labels of the dataset. -/
theorem run_close_self (l : List (S × V × X)) (am : Bool) (f : Option (V → X → X → Option D)) (d : Dataset S V X D)
    (h : Dataset.mk' l am f = .ok d) (A : AlgCfg D) (fuel : Nat) (clock : Nat → D) (st : IterState D) (r : Result S V X D)
    (hr : A.run d fuel clock st = .ok r) {p : Scores S V X} {ε : ℝ} (hc : AbsClose l r p ε) :
    ∃ q : Scores S V X, CloseTo l r q 0 ∧ ∀ c ∈ allClaims l, |q.2 c - p.2 c| ≤ ε := by
  obtain rfl := ((mk'_ok_iff l one_ne_zero_fp am f d).1 h).1
  rw [run_eq] at hr
  cases hex : A.exec (matsOf l f) fuel st with
  | error e => rw [hex] at hr; cases hr
  | ok out =>
    rw [hex] at hr
    simp only [Except.ok.injEq] at hr
    obtain ⟨s1, s2⟩ := (exec_sized (matsOf_wf l f) hex).1
    haveI : Inhabited D := ⟨FP.nan⟩
    obtain ⟨T, hT⟩ := exists_map (nodup_sources l) s1
    obtain ⟨B, hB⟩ := exists_map (nodup_claims l) s2
    obtain ⟨c1, c2⟩ := hc
    choose! y hy using c1
    choose! z hz using c2
    refine ⟨(y, z), ⟨fun s => ?_, fun v x => ?_⟩, fun c hc => (hz c hc).2⟩
    · split
      · rename_i hs
        exact ⟨y s, (hy s hs).1, by simp⟩
      · rename_i hs
        rw [← hr, hT, trust_resultOf, if_neg fun h => hs ((mem_allSources l).2 h)]
    · split
      · rename_i hs
        exact ⟨z (v, x), (hz _ hs).1, by simp⟩
      · rename_i hs
        rw [← hr, hB, belief_resultOf, if_neg fun h => hs ((mem_allClaims l).2 h)]

/-- **C112.** So the answers are right where the exact beliefs differ by more than twice the bound: if the exact belief in `x` exceeds that
in every other value of the variable by more than that, `x` is the only most believed value. -/
theorem C112_most_believed (l : List (S × V × X)) (am : Bool) (d : Dataset S V X D) (h : Dataset.mk' l am none = .ok d)
    (A : AlgCfg D) (fuel : Nat) (clock : Nat → D) (r : Result S V X D)
    (hr : A.run d fuel clock = .ok r) (p : Scores S V X) (ε : ℝ) (hc : AbsClose l r p ε) (v : V) (x : X)
    (hx : (v, x) ∈ allClaims l) (hsep : ∀ z, (v, z) ∈ allClaims l → z ≠ x → p.2 (v, z) + 2 * ε < p.2 (v, x)) :
    r.mostBelieved v = .ok [x] := by
  obtain ⟨q, hq, hqp⟩ := run_close_self l am none d h A fuel clock {} r hr hc
  refine C99_most_believed (.iter A) d fuel clock r hr l q 0 hq v x hx fun z hz hne => ?_
  have h1 := abs_le.1 (hqp _ hz)
  have h2 := abs_le.1 (hqp _ hx)
  have h3 := hsep z hz hne
  linarith [h1.2, h2.1]

/-- A dataset to which this applies: two sources of a claim at most, dampening factor 1/4 and initial trust 1/2. After any number of
iterations no score is wrong by more than `27 / 2 ^ 47`. -/
example (K : Nat) (clock : Nat → D) : ∃ (d : Dataset Nat Nat Nat D) (r : Result Nat Nat Nat D),
    Dataset.mk' [(0, 0, 1), (1, 0, 2), (1, 1, 5), (2, 0, 2)] false none = .ok d ∧
    (⟨.truthFinder (Arith.lit 1 2) (FP.fin (1 / 4)) (FP.fin (1 / 2)), .fixed K, none⟩ : AlgCfg D).run d (K + 1) clock = .ok r ∧
    r.iterations = some K ∧ AbsClose [(0, 0, 1), (1, 0, 2), (1, 1, 5), (2, 0, 2)] r
      (tfExact [(0, 0, 1), (1, 0, 2), (1, 1, 5), (2, 0, 2)] (1 / 4) (1 / 2) K) (27 / 2 ^ 47) := by
  have hd := (mk'_ok_iff [(0, 0, 1), (1, 0, 2), (1, 1, 5), (2, 0, 2)] (one_ne_zero_fp (R := .binary64 ω)) false none _).2
    ⟨rfl, .inr (by simp [NoRepeats]), by simp [optImpBad]⟩
  have hdbl : IsDouble (1 / 2) := ⟨1, -1, by norm_num, by norm_num, by norm_num, by norm_num⟩
  have hsq : ((1 : ℝ) / 4) ^ ((1 : ℝ) - 1 / 4 * (2 : Nat)) ≤ 1 / 2 := by
    have e : ((1 : ℝ) / 4) = (1 / 2) ^ (2 : ℝ) := by
      rw [Real.rpow_two]; norm_num
    rw [show ((1 : ℝ) - 1 / 4 * (2 : Nat)) = 1 / 2 by norm_num, e, ← Real.rpow_mul (by norm_num)]
    norm_num
  have ha : ∀ s, (claimsOf [((0 : Nat), (0 : Nat), (1 : Nat)), (1, 0, 2), (1, 1, 5), (2, 0, 2)] s).card ≤ 2 := by
    intro s
    by_cases hs : s ∈ sources [((0 : Nat), (0 : Nat), (1 : Nat)), (1, 0, 2), (1, 1, 5), (2, 0, 2)]
    · exact (by decide : ∀ s ∈ sources [((0 : Nat), (0 : Nat), (1 : Nat)), (1, 0, 2), (1, 1, 5), (2, 0, 2)],
        (claimsOf [((0 : Nat), (0 : Nat), (1 : Nat)), (1, 0, 2), (1, 1, 5), (2, 0, 2)] s).card ≤ 2) s hs
    · rw [Finset.card_eq_zero.2]
      · norm_num
      · by_contra hne
        obtain ⟨c, hc⟩ := Finset.nonempty_iff_ne_empty.2 hne
        exact hs (mem_sources_of_sourcesOf _ ((mem_sourcesOf _).2 ((mem_claimsOf _).1 hc)))
  have hb : ∀ c, (sourcesOf [((0 : Nat), (0 : Nat), (1 : Nat)), (1, 0, 2), (1, 1, 5), (2, 0, 2)] c).card ≤ 2 := by
    intro c
    by_cases hc : c ∈ claims [((0 : Nat), (0 : Nat), (1 : Nat)), (1, 0, 2), (1, 1, 5), (2, 0, 2)]
    · exact (by decide : ∀ c ∈ claims [((0 : Nat), (0 : Nat), (1 : Nat)), (1, 0, 2), (1, 1, 5), (2, 0, 2)],
        (sourcesOf [((0 : Nat), (0 : Nat), (1 : Nat)), (1, 0, 2), (1, 1, 5), (2, 0, 2)] c).card ≤ 2) c hc
    · rw [Finset.card_eq_zero.2]
      · norm_num
      · by_contra hne
        obtain ⟨s, hs⟩ := Finset.nonempty_iff_ne_empty.2 hne
        exact hc (mem_claims_of_claimsOf _ ((mem_claimsOf _).2 ((mem_sourcesOf _).1 hs)))
  obtain ⟨r, h1, h2, h3⟩ := C112_fixed _ (by simp) _ _ hd (by decide) (by decide) ha hb (Arith.lit 1 2) (1 / 4) (by norm_num) (by norm_num)
    (1 / 2) hdbl (by norm_num) (δ := 1 / 4) (by norm_num) (by norm_num) (by norm_num) hsq (by norm_num) none K (K + 1) (by omega) clock {}
  refine ⟨_, r, hd, h1, h2, ?_⟩
  have e : (((2 : Nat) : ℝ) + ((2 : Nat) : ℝ) + 23) / (2 ^ 50 * (1 / 4) * (1 - 1 / 4 * ((2 : Nat) : ℝ))) = 27 / 2 ^ 47 := by norm_num
  rwa [e] at h3

end TD
