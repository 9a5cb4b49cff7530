import Verif.Lemmas.Settle
import Verif.Props.Support
import Verif.Props.ConvergenceAvlog
/-!
# C88: TruthFinder settles

Exact arithmetic.
-/

namespace TD
open Spec Ex Filter Topology
attribute [-instance] instBEqProd

variable {S V X : Type} [DecidableEq S] [DecidableEq V] [DecidableEq X] {l : List (S × V × X)}
  {f : Option (V → X → X → Option ℝ)}

theorem tf_plain {rho : ℝ} (h : NoImplications f rho) (gamma : ℝ) (p : Scores S V X) (c : V × X) :
    (tfStep l (impVal f) rho gamma p).2 c = logit l gamma (fun s => -Real.log (1 - p.1 s)) c := by
  have e : rho * ∑ d ∈ (rivals l c).erase c, impVal f c.1 d.2 c.2 * ∑ s ∈ sourcesOf l d, -Real.log (1 - p.1 s) = 0 := by
    rcases h with rfl | rfl
    · simp [impVal]
    · simp
  show 1 / (1 + Real.exp (-gamma * (_ + rho * _))) = _
  unfold logit
  rw [e, add_zero, neg_mul]

theorem triples_card (l : List (S × V × X)) : ∑ c ∈ allClaims l, nSources l c = (recorded l).length := by
  have h := Finset.card_eq_sum_card_fiberwise (s := (recorded l).toFinset) (t := allClaims l) (f := fun t => t.2)
    (fun t ht => by
      have ht' : t ∈ recorded l := List.mem_toFinset.1 ht
      exact List.mem_toFinset.2 (List.mem_map.2 ⟨t, ht', rfl⟩))
  rw [List.toFinset_card_of_nodup (nodup_recorded l)] at h
  rw [h, Nat.cast_sum]
  refine Finset.sum_congr rfl fun c _ => ?_
  show ((sourcesOf l c).card : ℝ) = _
  congr 1
  refine Finset.card_bij (fun s _ => (s, c)) (fun s hs => ?_) (fun s _ s' _ e => (Prod.mk.inj e).1) fun t ht => ?_
  · rw [Finset.mem_filter, List.mem_toFinset]
    exact ⟨(mem_sourcesOf l).1 hs, rfl⟩
  · rw [Finset.mem_filter, List.mem_toFinset] at ht
    obtain ⟨ht, rfl⟩ := ht
    exact ⟨t.1, (mem_sourcesOf l).2 ht, rfl⟩

/-- Scores after `k` iterations of TruthFinder. -/
noncomputable abbrev tfAt (l : List (S × V × X)) (f : Option (V → X → X → Option ℝ)) (rho gamma t0 : ℝ) (k : Nat) : Scores S V X :=
  (tfStep l (impVal f) rho gamma)^[k] ((fun _ => t0), fun _ => 0)

theorem tf_inv {rho gamma t0 : ℝ} (h0 : 0 ≤ t0) (h1 : t0 < 1) (k : Nat) : TfInv l (tfAt l f rho gamma t0 k) :=
  (tf_implements (l := l) f (.fixed 0) none rho gamma t0 h0 h1).inv_iterate k

theorem tf_succ (rho gamma t0 : ℝ) (k : Nat) :
    tfAt l f rho gamma t0 (k + 1) = tfStep l (impVal f) rho gamma (tfAt l f rho gamma t0 k) :=
  Function.iterate_succ_apply' _ _ _

theorem tf_belief_range (rho gamma t0 : ℝ) (k : Nat) (c : V × X) :
    0 < (tfAt l f rho gamma t0 (k + 1)).2 c ∧ (tfAt l f rho gamma t0 (k + 1)).2 c < 1 := by
  rw [tf_succ]
  exact ⟨sigmoid_pos _, sigmoid_lt _⟩

/-- `-log (1 - trust)` after `k` iterations. -/
noncomputable def xAt (l : List (S × V × X)) (f : Option (V → X → X → Option ℝ)) (rho gamma t0 : ℝ) (k : Nat) (s : S) : ℝ :=
  -Real.log (1 - (tfAt l f rho gamma t0 k).1 s)

theorem xAt_nonneg {rho gamma t0 : ℝ} (h0 : 0 ≤ t0) (h1 : t0 < 1) (k : Nat) {s : S} (hs : s ∈ sources l) :
    0 ≤ xAt l f rho gamma t0 k s := by
  have h := tf_inv (l := l) (f := f) (rho := rho) (gamma := gamma) h0 h1 k s hs
  have := Real.log_nonpos (x := 1 - (tfAt l f rho gamma t0 k).1 s) (by linarith [h.2]) (by linarith [h.1])
  unfold xAt
  linarith

/-- Half of the decrease: the sum of the squared changes of the beliefs is bounded by the loss of energy. -/
theorem tf_descent {rho gamma t0 : ℝ} (h : NoImplications f rho) (hg : 0 ≤ gamma) (h0 : 0 ≤ t0) (h1 : t0 < 1) (k : Nat) :
    energy l gamma (xAt l f rho gamma t0 k) (tfAt l f rho gamma t0 (k + 1)).2 +
      ∑ i ∈ Finset.range k, ∑ c ∈ allClaims l, ((tfAt l f rho gamma t0 (i + 2)).2 c - (tfAt l f rho gamma t0 (i + 1)).2 c) ^ 2 ≤
    gamma * ((recorded l).length * (-Real.log (1 - t0) / 2 + (1 - t0))) + (allClaims l).card * coin (1 / 2) := by
  have hb : ∀ k, (tfAt l f rho gamma t0 (k + 1)).2 = logit l gamma (xAt l f rho gamma t0 k) := by
    intro k
    funext c
    rw [tf_succ, tf_plain h]
    rfl
  induction k with
  | zero =>
    have := energy_belief (l := l) gamma (xAt l f rho gamma t0 0) (y := fun _ => 1 / 2) (fun c _ => ⟨by norm_num, by norm_num⟩)
    rw [← hb] at this
    have hx : xAt l f rho gamma t0 0 = fun _ => -Real.log (1 - t0) := rfl
    have e := energy_half (l := l) gamma (-Real.log (1 - t0))
    rw [triples_card, neg_neg, Real.exp_log (by linarith), ← hx] at e
    have hs : 0 ≤ ∑ c ∈ allClaims l, (1 / 2 - (tfAt l f rho gamma t0 (0 + 1)).2 c) ^ 2 := Finset.sum_nonneg fun _ _ => sq_nonneg _
    rw [Finset.range_zero, Finset.sum_empty]
    linarith
  | succ k ih =>
    have hx : xAt l f rho gamma t0 (k + 1) = tau l (tfAt l f rho gamma t0 (k + 1)).2 := by
      funext s
      unfold xAt tau
      rw [tf_succ]
      rfl
    have e1 := energy_trust (l := l) hg (xAt l f rho gamma t0 k) (y := (tfAt l f rho gamma t0 (k + 1)).2)
      (fun c _ => tf_belief_range rho gamma t0 k c)
    rw [← hx] at e1
    have e2 := energy_belief (l := l) gamma (xAt l f rho gamma t0 (k + 1)) (y := (tfAt l f rho gamma t0 (k + 1)).2)
      (fun c _ => tf_belief_range rho gamma t0 k c)
    rw [← hb] at e2
    have e3 : ∑ c ∈ allClaims l, ((tfAt l f rho gamma t0 (k + 2)).2 c - (tfAt l f rho gamma t0 (k + 1)).2 c) ^ 2 =
        ∑ c ∈ allClaims l, ((tfAt l f rho gamma t0 (k + 1)).2 c - (tfAt l f rho gamma t0 (k + 1 + 1)).2 c) ^ 2 :=
      Finset.sum_congr rfl fun c _ => by ring
    rw [Finset.sum_range_succ, e3]
    linarith

/-- **C88.** The total movement of the beliefs of TruthFinder without implications is bounded, however
many iterations are run: the squares of their changes after the first iteration add up to at
most `gamma n (-log (1 - t0) / 2 + 1 - t0)`, `n` the number of recorded triples. -/
theorem C88_movement (l : List (S × V × X)) {rho gamma t0 : ℝ} (h : NoImplications f rho) (hg : 0 ≤ gamma) (h0 : 0 ≤ t0)
    (h1 : t0 < 1) (k : Nat) :
    ∑ i ∈ Finset.range k, ∑ c ∈ allClaims l, (((tfStep l (impVal f) rho gamma)^[i + 2] ((fun _ => t0), fun _ => 0)).2 c -
        ((tfStep l (impVal f) rho gamma)^[i + 1] ((fun _ => t0), fun _ => 0)).2 c) ^ 2 ≤
    gamma * ((recorded l).length * (-Real.log (1 - t0) / 2 + (1 - t0))) := by
  have e1 := tf_descent (l := l) h hg h0 h1 k
  have e2 := energy_lower (l := l) hg (x := xAt l f rho gamma t0 k) (y := (tfAt l f rho gamma t0 (k + 1)).2)
    (fun s hs => xAt_nonneg h0 h1 k hs) (fun c _ => tf_belief_range rho gamma t0 k c)
  linarith

theorem tf_trust_half {rho gamma t0 : ℝ} (h : NoImplications f rho) (hg : 0 ≤ gamma) (h0 : 0 ≤ t0) (h1 : t0 < 1) (k : Nat) {s : S}
    (hs : s ∈ sources l) : 1 / 2 ≤ (tfAt l f rho gamma t0 (k + 1)).1 s := by
  rw [tf_succ]
  show 1 / 2 ≤ (∑ c ∈ claimsOf l s, (tfStep l (impVal f) rho gamma (tfAt l f rho gamma t0 k)).2 c) / nClaims l s
  have hn := nClaims_pos l hs
  rw [le_div_iff₀ hn]
  have : ∑ _c ∈ claimsOf l s, (1 / 2 : ℝ) ≤ ∑ c ∈ claimsOf l s, (tfStep l (impVal f) rho gamma (tfAt l f rho gamma t0 k)).2 c := by
    refine Finset.sum_le_sum fun c _ => ?_
    rw [tf_plain h]
    unfold logit
    refine one_div_le_one_div_of_le (by positivity) ?_
    have hx : 0 ≤ ∑ s ∈ sourcesOf l c, -Real.log (1 - (tfAt l f rho gamma t0 k).1 s) :=
      Finset.sum_nonneg fun s hs => xAt_nonneg h0 h1 k (mem_sources_of_sourcesOf l hs)
    have := Real.exp_le_one_iff.2 (neg_nonpos.2 (mul_nonneg hg hx))
    linarith
  rw [Finset.sum_const, nsmul_eq_mul] at this
  rw [mul_comm]
  exact this

theorem tf_trust_change (rho gamma t0 : ℝ) (k : Nat) {s : S} (hs : s ∈ sources l) {e : ℝ} (he : 0 ≤ e)
    (hsum : ∑ c ∈ allClaims l, ((tfAt l f rho gamma t0 (k + 2)).2 c - (tfAt l f rho gamma t0 (k + 1)).2 c) ^ 2 ≤ e ^ 2) :
    |(tfAt l f rho gamma t0 (k + 2)).1 s - (tfAt l f rho gamma t0 (k + 1)).1 s| ≤ e := by
  have hn := nClaims_pos l hs
  have ht : ∀ j, (tfAt l f rho gamma t0 (j + 1)).1 s = (∑ c ∈ claimsOf l s, (tfAt l f rho gamma t0 (j + 1)).2 c) / nClaims l s := by
    intro j; rw [tf_succ]; rfl
  rw [ht (k + 1), ht k, ← sub_div, ← Finset.sum_sub_distrib, abs_div, abs_of_pos hn, div_le_iff₀ hn]
  refine (Finset.abs_sum_le_sum_abs _ _).trans ?_
  have : ∑ c ∈ claimsOf l s, |(tfAt l f rho gamma t0 (k + 2)).2 c - (tfAt l f rho gamma t0 (k + 1)).2 c| ≤ ∑ _c ∈ claimsOf l s, e := by
    refine Finset.sum_le_sum fun c hc => ?_
    have hc' : c ∈ allClaims l := (mem_allClaims l).2 (mem_claims_of_claimsOf l hc)
    have := Finset.single_le_sum (f := fun c => ((tfAt l f rho gamma t0 (k + 2)).2 c - (tfAt l f rho gamma t0 (k + 1)).2 c) ^ 2)
      (fun _ _ => sq_nonneg _) hc'
    exact abs_le_of_sq_le_sq (this.trans hsum) he
  rw [Finset.sum_const, nsmul_eq_mul] at this
  refine this.trans (le_of_eq ?_)
  rw [mul_comm]
  rfl

/-- Number of iterations after which TruthFinder without implications is sure to have settled. -/
noncomputable def settleBound (l : List (S × V × X)) (gamma t0 th : ℝ) : ℝ :=
  (allSources l).card ^ 2 * (gamma * ((recorded l).length * (-Real.log (1 - t0) / 2 + (1 - t0)))) / th ^ 2

theorem tf_settles {rho gamma t0 th : ℝ} (hl : l ≠ []) (h : NoImplications f rho) (hg : 0 ≤ gamma) (h0 : 0 ≤ t0) (h1 : t0 < 1)
    (hth : 0 < th) (m : Measure) : ∃ n : Nat, (n : ℝ) ≤ settleBound l gamma t0 th + 1 ∧
      distance m (allSources l) (tfAt l f rho gamma t0 (n + 1)).1 (tfAt l f rho gamma t0 n).1 < th := by
  have hne : (allSources l).Nonempty := by
    obtain ⟨s, hs⟩ := List.exists_mem_of_ne_nil _ (sources_ne hl)
    exact ⟨s, (mem_allSources l).2 hs⟩
  have hcard : (0 : ℝ) < (allSources l).card := by exact_mod_cast hne.card_pos
  by_contra hcon
  have hcon : ∀ n : Nat, (n : ℝ) ≤ settleBound l gamma t0 th + 1 →
      th ≤ distance m (allSources l) (tfAt l f rho gamma t0 (n + 1)).1 (tfAt l f rho gamma t0 n).1 := by
    intro n hn
    by_contra hlt
    exact hcon ⟨n, hn, not_le.1 hlt⟩
  have hlog : 0 ≤ -Real.log (1 - t0) := by
    have := Real.log_nonpos (x := 1 - t0) (by linarith) (by linarith); linarith
  have hB : 0 ≤ settleBound l gamma t0 th := by
    unfold settleBound
    have : 0 ≤ -Real.log (1 - t0) / 2 + (1 - t0) := by linarith
    positivity
  obtain ⟨K, hK⟩ : ∃ K : Nat, K = ⌊settleBound l gamma t0 th⌋₊ + 1 := ⟨_, rfl⟩
  have hK1 : (K : ℝ) ≤ settleBound l gamma t0 th + 1 := by
    rw [hK]; push_cast
    linarith [Nat.floor_le hB]
  have hK2 : settleBound l gamma t0 th < K := by
    rw [hK]; push_cast
    exact Nat.lt_floor_add_one _
  have hstep : ∀ i ∈ Finset.range K, (th / (allSources l).card) ^ 2 ≤
      ∑ c ∈ allClaims l, ((tfAt l f rho gamma t0 (i + 2)).2 c - (tfAt l f rho gamma t0 (i + 1)).2 c) ^ 2 := by
    intro i hi
    have hi := Finset.mem_range.1 hi
    by_contra hlt
    push Not at hlt
    generalize hq : ∑ c ∈ allClaims l, ((tfAt l f rho gamma t0 (i + 2)).2 c - (tfAt l f rho gamma t0 (i + 1)).2 c) ^ 2 = q at hlt
    have hq0 : 0 ≤ q := by rw [← hq]; exact Finset.sum_nonneg fun _ _ => sq_nonneg _
    have hroot : Real.sqrt q < th / (allSources l).card := by
      rw [Real.sqrt_lt' (by positivity)]; exact hlt
    have hch : ∀ s ∈ allSources l, |(tfAt l f rho gamma t0 (i + 2)).1 s - (tfAt l f rho gamma t0 (i + 1)).1 s| ≤ min (Real.sqrt q) (1 / 2) := by
      intro s hs
      have hs' := (mem_allSources l).1 hs
      refine le_min (tf_trust_change rho gamma t0 i hs' (Real.sqrt_nonneg q) (by rw [hq, Real.sq_sqrt hq0])) ?_
      have a1 := tf_trust_half (l := l) h hg h0 h1 (i + 1) hs'
      have a2 := tf_trust_half (l := l) h hg h0 h1 i hs'
      have a3 := (tf_inv (l := l) (f := f) (rho := rho) (gamma := gamma) h0 h1 (i + 2) s hs').2
      have a4 := (tf_inv (l := l) (f := f) (rho := rho) (gamma := gamma) h0 h1 (i + 1) s hs').2
      rw [abs_le]
      constructor <;> linarith
    have hd := distance_le hne (lo := 1 / 2) (by norm_num) (le_min (Real.sqrt_nonneg q) (by norm_num))
      (fun s hs => tf_trust_half (l := l) h hg h0 h1 (i + 1) ((mem_allSources l).1 hs))
      (fun s hs => tf_trust_half (l := l) h hg h0 h1 i ((mem_allSources l).1 hs)) hch
      ((min_le_right _ _).trans (by norm_num)) m
    have hfar := hcon (i + 1) (by
      have : ((i + 1 : Nat) : ℝ) ≤ K := by exact_mod_cast hi
      linarith)
    have : (allSources l).card * min (Real.sqrt q) (1 / 2) < th := by
      calc (allSources l).card * min (Real.sqrt q) (1 / 2) ≤ (allSources l).card * Real.sqrt q :=
            mul_le_mul_of_nonneg_left (min_le_left _ _) hcard.le
        _ < (allSources l).card * (th / (allSources l).card) := mul_lt_mul_of_pos_left hroot hcard
        _ = th := by field_simp
    exact absurd (hfar.trans hd) (not_le.2 this)
  have hsum := Finset.sum_le_sum hstep
  rw [Finset.sum_const, Finset.card_range, nsmul_eq_mul] at hsum
  have htot := hsum.trans (C88_movement (f := f) l h hg h0 h1 K)
  have : (K : ℝ) ≤ settleBound l gamma t0 th := by
    unfold settleBound
    rw [le_div_iff₀ (by positivity)]
    calc (K : ℝ) * th ^ 2 = (allSources l).card ^ 2 * (K * (th / (allSources l).card) ^ 2) := by field_simp
      _ ≤ _ := mul_le_mul_of_nonneg_left htot (by positivity)
  linarith

/-- **C88.** TruthFinder without implications and with a `ConvergenceIterator` of any measure and
positive threshold succeeds, if the limit is at least the stated bound: two iterations more than
`|S|² gamma n (-log (1 - t0) / 2 + 1 - t0) / th²`, `n` the number of recorded triples, `S` the set of
sources; and it does not need more iterations than that. -/
theorem C88_settles (l : List (S × V × X)) (am : Bool) (d : Dataset S V X Ex) (hd : Dataset.mk' l am (finImp f) = .ok d)
    {rho gamma t0 th : ℝ} (hl : l ≠ []) (h : NoImplications f rho) (hg : 0 ≤ gamma) (h0 : 0 ≤ t0) (h1 : t0 < 1)
    (hth : 0 < th) (m : Measure) (pr : Option Prior) (limit : Int) (fuel : Nat) (clock : Nat → Ex) (st : IterState Ex)
    (hlim : (allSources l).card ^ 2 * (gamma * ((recorded l).length * (-Real.log (1 - t0) / 2 + (1 - t0)))) / th ^ 2 + 2 ≤ (limit : ℝ))
    (hfuel : limit < (fuel : Int)) :
    ∃ r, (⟨.truthFinder (fin rho) (fin gamma) (fin t0), .conv (some m) (fin th) limit, pr⟩ : AlgCfg Ex).run d fuel clock st = .ok r ∧
      ∃ n : Nat, r.iterations = some n ∧
        (n : ℝ) ≤ (allSources l).card ^ 2 * (gamma * ((recorded l).length * (-Real.log (1 - t0) / 2 + (1 - t0)))) / th ^ 2 + 2 := by
  obtain rfl := mk'_ex hd
  obtain ⟨n, hn, hdist⟩ := tf_settles (f := f) hl h hg h0 h1 hth m
  unfold settleBound at hn
  have hlim' : ((n + 1 : Nat) : Int) ≤ limit := by
    have : (((n + 1 : Nat) : Int) : ℝ) ≤ (limit : ℝ) := by push_cast; linarith
    exact_mod_cast this
  obtain ⟨r, hr, k, hk, hkn⟩ := run_succeeds_of_lt (by simp) hl
    (fun limit => tf_implements f (.conv (some m) (fin th) limit) pr rho gamma t0 h0 h1) (N := n)
    (by
      have := hdist
      rw [tf_succ] at this
      exact this) limit fuel clock st hlim' (by omega)
  refine ⟨r, hr, k, hk, ?_⟩
  have : (k : ℝ) ≤ ((n + 1 : Nat) : ℝ) := by exact_mod_cast hkn
  push_cast at this
  linarith

/-! ### Implications that do not contradict -/

theorem tf_mono (hf : NoContradiction f) {rho gamma : ℝ} (hrho : 0 ≤ rho) (hg : 0 ≤ gamma)
    {p p' : Scores S V X} (hp : TfInv l p) (hp' : TfInv l p') (hle : ∀ s ∈ sources l, p.1 s ≤ p'.1 s) :
    (∀ s ∈ sources l, (tfStep l (impVal f) rho gamma p).1 s ≤ (tfStep l (impVal f) rho gamma p').1 s) ∧
    (∀ c, (tfStep l (impVal f) rho gamma p).2 c ≤ (tfStep l (impVal f) rho gamma p').2 c) := by
  have hsig : ∀ c, (∑ s ∈ sourcesOf l c, -Real.log (1 - p.1 s)) ≤ ∑ s ∈ sourcesOf l c, -Real.log (1 - p'.1 s) := by
    intro c
    refine Finset.sum_le_sum fun s hs => ?_
    have hs' := mem_sources_of_sourcesOf l hs
    exact neg_le_neg (Real.log_le_log (by linarith [(hp' s hs').2]) (by linarith [hle s hs']))
  have hb : ∀ c, (tfStep l (impVal f) rho gamma p).2 c ≤ (tfStep l (impVal f) rho gamma p').2 c := by
    intro c
    refine one_div_le_one_div_of_le (by positivity) ?_
    have hrest : rho * ∑ d ∈ (rivals l c).erase c, impVal f c.1 d.2 c.2 * ∑ s ∈ sourcesOf l d, -Real.log (1 - p.1 s) ≤
        rho * ∑ d ∈ (rivals l c).erase c, impVal f c.1 d.2 c.2 * ∑ s ∈ sourcesOf l d, -Real.log (1 - p'.1 s) :=
      mul_le_mul_of_nonneg_left (Finset.sum_le_sum fun d _ =>
        mul_le_mul_of_nonneg_left (hsig d) (impVal_nonneg hf _ _ _)) hrho
    have := mul_le_mul_of_nonneg_left (add_le_add (hsig c) hrest) hg
    have := Real.exp_le_exp.2 (neg_le_neg this)
    simp only [neg_mul]
    linarith
  exact ⟨fun s hs => div_le_div_of_nonneg_right (Finset.sum_le_sum fun c _ => hb c) (nClaims_pos l hs).le, hb⟩

theorem tf_half' (hf : NoContradiction f) {rho gamma : ℝ} (hrho : 0 ≤ rho) (hg : 0 ≤ gamma) {p : Scores S V X} (hp : TfInv l p) :
    (∀ s ∈ sources l, 1 / 2 ≤ (tfStep l (impVal f) rho gamma p).1 s) ∧ (∀ c, 1 / 2 ≤ (tfStep l (impVal f) rho gamma p).2 c) := by
  have h := tf_mono (l := l) hf hrho hg (p := ((fun _ => 0), fun _ => 0)) (p' := p) (fun _ _ => ⟨le_rfl, by norm_num⟩) hp
    (fun s hs => (hp s hs).1)
  have e : ∀ c, (tfStep l (impVal f) rho gamma ((fun _ => 0), fun _ => 0)).2 c = 1 / 2 := by
    intro c
    show 1 / (1 + Real.exp (-gamma * ((∑ s ∈ sourcesOf l c, -Real.log (1 - 0)) +
      rho * ∑ d ∈ (rivals l c).erase c, impVal f c.1 d.2 c.2 * ∑ s ∈ sourcesOf l d, -Real.log (1 - 0)))) = 1 / 2
    norm_num
  refine ⟨fun s hs => ?_, fun c => (e c) ▸ h.2 c⟩
  refine le_trans (le_of_eq ?_) (h.1 s hs)
  show 1 / 2 = (∑ c ∈ claimsOf l s, (tfStep l (impVal f) rho gamma ((fun _ => 0), fun _ => 0)).2 c) / nClaims l s
  have hn := nClaims_pos l hs
  rw [Finset.sum_congr rfl fun c _ => e c, Finset.sum_const, nsmul_eq_mul, eq_div_iff hn.ne', mul_comm]
  rfl

theorem tf_rises (hf : NoContradiction f) {rho gamma t0 : ℝ} (hrho : 0 ≤ rho) (hg : 0 ≤ gamma) (h0 : 0 ≤ t0) (h1 : t0 ≤ 1 / 2)
    (k : Nat) : (∀ s ∈ sources l, (tfAt l f rho gamma t0 k).1 s ≤ (tfAt l f rho gamma t0 (k + 1)).1 s) ∧
      (∀ c, (tfAt l f rho gamma t0 k).2 c ≤ (tfAt l f rho gamma t0 (k + 1)).2 c) := by
  have h1' : t0 < 1 := by linarith
  induction k with
  | zero =>
    obtain ⟨a, b⟩ := tf_half' (l := l) hf hrho hg (tf_inv (l := l) (f := f) (rho := rho) (gamma := gamma) h0 h1' 0)
    rw [tf_succ]
    exact ⟨fun s hs => h1.trans (a s hs), fun c => le_trans (show (0 : ℝ) ≤ 1 / 2 by norm_num) (b c)⟩
  | succ k ih =>
    have := tf_mono hf hrho hg (tf_inv (l := l) h0 h1' k) (tf_inv h0 h1' (k + 1)) ih.1
    rw [← tf_succ, ← tf_succ] at this
    exact this

theorem tf_rises_le (hf : NoContradiction f) {rho gamma t0 : ℝ} (hrho : 0 ≤ rho) (hg : 0 ≤ gamma) (h0 : 0 ≤ t0) (h1 : t0 ≤ 1 / 2)
    {k n : Nat} (hkn : k ≤ n) : (∀ s ∈ sources l, (tfAt l f rho gamma t0 k).1 s ≤ (tfAt l f rho gamma t0 n).1 s) ∧
      (∀ c, (tfAt l f rho gamma t0 k).2 c ≤ (tfAt l f rho gamma t0 n).2 c) := by
  exact ⟨fun s hs => monotone_nat_of_le_succ (f := fun k => (tfAt l f rho gamma t0 k).1 s)
      (fun k => (tf_rises hf hrho hg h0 h1 k).1 s hs) hkn,
    fun c => monotone_nat_of_le_succ (f := fun k => (tfAt l f rho gamma t0 k).2 c) (fun k => (tf_rises (l := l) hf hrho hg h0 h1 k).2 c) hkn⟩

/-- **C88.** If the initial trust is at most 1/2 and neither the damping factor, the influence nor any
implication is negative, then more iterations of TruthFinder (with whatever iterators) never
give a lower trust or belief. -/
theorem C88_rises {am : Bool} {d : Dataset S V X Ex} (hd : Dataset.mk' l am (finImp f) = .ok d) (hf : NoContradiction f)
    {rho gamma t0 : ℝ} (hrho : 0 ≤ rho) (hg : 0 ≤ gamma) (h0 : 0 ≤ t0) (h1 : t0 ≤ 1 / 2) {pr pr' : Option Prior}
    {it it' : IterCfg Ex} {fuel fuel' : Nat} {clock clock' : Nat → Ex} {st st' : IterState Ex} {r r' : Result S V X Ex}
    (hr : AlgCfg.run ⟨.truthFinder (fin rho) (fin gamma) (fin t0), it, pr⟩ d fuel clock st = .ok r)
    (hr' : AlgCfg.run ⟨.truthFinder (fin rho) (fin gamma) (fin t0), it', pr'⟩ d fuel' clock' st' = .ok r')
    {n n' : Nat} (hn : r.iterations = some n) (hn' : r'.iterations = some n') (hle : n ≤ n') :
    (∀ s ∈ allSources l, ∃ t t' : ℝ, TrustIn r s t ∧ TrustIn r' s t' ∧ t ≤ t') ∧
    (∀ c ∈ allClaims l, ∃ b b' : ℝ, BeliefIn r c b ∧ BeliefIn r' c b' ∧ b ≤ b') := by
  obtain rfl := mk'_ex hd
  have h1' : t0 < 1 := by linarith
  have H := tf_implements (l := l) f it pr rho gamma t0 h0 h1'
  have H' := tf_implements (l := l) f it' pr' rho gamma t0 h0 h1'
  obtain ⟨m, e, rep⟩ := H.run_reports (by simp) hr
  obtain ⟨m', e', rep'⟩ := H'.run_reports (by simp) hr'
  rw [e] at hn
  rw [e'] at hn'
  cases hn
  cases hn'
  have key := tf_rises_le (l := l) hf hrho hg h0 h1 hle
  exact ⟨fun s hs => ⟨_, _, (rep.trustIn hs).2 rfl, (rep'.trustIn hs).2 rfl, key.1 s ((mem_allSources l).1 hs)⟩,
    fun c hc => ⟨_, _, (rep.beliefIn hc).2 rfl, (rep'.beliefIn hc).2 rfl, key.2 c⟩⟩

theorem tf_limit (hf : NoContradiction f) {rho gamma t0 : ℝ} (hrho : 0 ≤ rho) (hg : 0 ≤ gamma) (h0 : 0 ≤ t0) (h1 : t0 ≤ 1 / 2) :
    ∃ q : Scores S V X, (∀ s ∈ allSources l, 1 / 2 ≤ q.1 s ∧ q.1 s ≤ 1 ∧ Tendsto (fun k => (tfAt l f rho gamma t0 k).1 s) atTop (𝓝 (q.1 s))) ∧
      ∀ c, 1 / 2 ≤ q.2 c ∧ q.2 c ≤ 1 ∧ Tendsto (fun k => (tfAt l f rho gamma t0 k).2 c) atTop (𝓝 (q.2 c)) := by
  have h1' : t0 < 1 := by linarith
  have hhalf := tf_half' (l := l) hf hrho hg (tf_inv (l := l) (f := f) (rho := rho) (gamma := gamma) h0 h1' 0)
  rw [← tf_succ] at hhalf
  refine ⟨(fun s => ⨆ k, (tfAt l f rho gamma t0 k).1 s, fun c => ⨆ k, (tfAt l f rho gamma t0 k).2 c), fun s hs => ?_, fun c => ?_⟩
  · have hs' := (mem_allSources l).1 hs
    have hub : ∀ k, (tfAt l f rho gamma t0 k).1 s ≤ 1 := fun k => (tf_inv h0 h1' k s hs').2.le
    have hbdd : BddAbove (Set.range fun k => (tfAt l f rho gamma t0 k).1 s) := ⟨1, by rintro _ ⟨k, rfl⟩; exact hub k⟩
    exact ⟨(hhalf.1 s hs').trans (le_ciSup hbdd (0 + 1)), ciSup_le hub,
      tendsto_atTop_ciSup (monotone_nat_of_le_succ fun k => (tf_rises hf hrho hg h0 h1 k).1 s hs') hbdd⟩
  · have hub : ∀ k, (tfAt l f rho gamma t0 k).2 c ≤ 1 := by
      intro k
      cases k with
      | zero => exact zero_le_one
      | succ k => exact (tf_belief_range rho gamma t0 k c).2.le
    have hbdd : BddAbove (Set.range fun k => (tfAt l f rho gamma t0 k).2 c) := ⟨1, by rintro _ ⟨k, rfl⟩; exact hub k⟩
    exact ⟨(hhalf.2 c).trans (le_ciSup hbdd (0 + 1)), ciSup_le hub,
      tendsto_atTop_ciSup (monotone_nat_of_le_succ fun k => (tf_rises (l := l) hf hrho hg h0 h1 k).2 c) hbdd⟩

/-- **C88.** In that case the scores converge, to values between 1/2 and 1, and a run with a
`ConvergenceIterator` of any measure and positive threshold succeeds if the limit is large enough. -/
theorem C88_run_succeeds (l : List (S × V × X)) (am : Bool) (d : Dataset S V X Ex) (hd : Dataset.mk' l am (finImp f) = .ok d)
    (hf : NoContradiction f) {rho gamma t0 th : ℝ} (hl : l ≠ []) (hrho : 0 ≤ rho) (hg : 0 ≤ gamma) (h0 : 0 ≤ t0) (h1 : t0 ≤ 1 / 2)
    (hth : 0 < th) (m : Measure) (pr : Option Prior) :
    ∃ N : Nat, ∀ (limit : Int) (fuel : Nat) (clock : Nat → Ex) (st : IterState Ex),
      (N : Int) ≤ limit → N < fuel →
      ∃ r, (⟨.truthFinder (fin rho) (fin gamma) (fin t0), .conv (some m) (fin th) limit, pr⟩ : AlgCfg Ex).run d fuel clock st = .ok r ∧
        ∃ k, r.iterations = some k ∧ k ≤ N := by
  obtain rfl := mk'_ex hd
  obtain ⟨q, hq, -⟩ := tf_limit (l := l) hf hrho hg h0 h1
  refine run_succeeds_of_tendsto (by simp) hth hl
    (fun limit => tf_implements f _ pr rho gamma t0 h0 (by linarith)) ?_
  obtain ⟨s, hs⟩ := List.exists_mem_of_ne_nil _ (sources_ne hl)
  have hs := (mem_allSources l).2 hs
  refine tendsto_distance ⟨s, hs⟩ (fun a ha => ?_) (fun a ha => (hq a ha).2.2) ⟨s, hs, by linarith [(hq s hs).1]⟩ m
  have := (tendsto_add_atTop_iff_nat 1).2 (hq a ha).2.2
  simp only [tf_succ] at this
  exact this

/-- **C88.** The limit itself. -/
theorem C88_converges (l : List (S × V × X)) (hf : NoContradiction f) {rho gamma t0 : ℝ} (hrho : 0 ≤ rho) (hg : 0 ≤ gamma)
    (h0 : 0 ≤ t0) (h1 : t0 ≤ 1 / 2) :
    ∃ q : Scores S V X,
      (∀ s ∈ allSources l, 1 / 2 ≤ q.1 s ∧ q.1 s ≤ 1 ∧
        Tendsto (fun k => ((tfStep l (impVal f) rho gamma)^[k] ((fun _ => t0), fun _ => 0)).1 s) atTop (𝓝 (q.1 s))) ∧
      (∀ c ∈ allClaims l, 1 / 2 ≤ q.2 c ∧ q.2 c ≤ 1 ∧
        Tendsto (fun k => ((tfStep l (impVal f) rho gamma)^[k] ((fun _ => t0), fun _ => 0)).2 c) atTop (𝓝 (q.2 c))) := by
  obtain ⟨q, a, b⟩ := tf_limit (l := l) hf hrho hg h0 h1
  exact ⟨q, a, fun c _ => b c⟩

/-! ### Cases -/

/-- TruthFinder with the default parameters and a threshold of 1/10 settles on a dataset of five triples. -/
example (m : Measure) (clock : Nat → Ex) : ∃ (d : Dataset Nat Nat Nat Ex) (r : Result Nat Nat Nat Ex),
    Dataset.mk' twoParts false (finImp none) = .ok d ∧
    AlgCfg.run ⟨.truthFinder (fin 0.5) (fin 0.3) (fin 0.9), .conv (some m) (fin 0.1) 100000, none⟩ d 100001 clock {} = .ok r := by
  obtain ⟨d, hd⟩ := exists_dataset twoParts (by decide)
  obtain ⟨r, hr, -⟩ := C88_settles (f := none) twoParts false d hd (rho := 0.5) (gamma := 0.3) (t0 := 0.9) (th := 0.1) (by decide)
    (.inl rfl) (by norm_num) (by norm_num) (by norm_num) (by norm_num) m none 100000 100001 clock {}
    (by
      have h1 : (allSources twoParts).card = 4 := by decide
      have h2 : (recorded twoParts).length = 5 := by decide
      have h3 : -Real.log (1 - 0.9) ≤ 9 := by
        have := Real.log_le_sub_one_of_pos (x := (1 - 0.9 : ℝ)⁻¹) (by norm_num)
        rw [Real.log_inv] at this
        norm_num at this ⊢
        linarith
      rw [h1, h2]
      norm_num at h3 ⊢
      linarith) (by norm_num)
  exact ⟨d, r, hd, hr⟩

/-- Implications that do not contradict: related values support each other. -/
example : NoContradiction (V := Nat) (X := Nat) (some fun _ x y => if x + 1 = y then some (1 / 2) else none) := by
  rintro g ⟨⟩ v x y i h
  simp only at h
  split at h <;> cases h
  norm_num

example (clock : Nat → Ex) : ∃ (d : Dataset Nat Nat Nat Ex) (r r' : Result Nat Nat Nat Ex),
    Dataset.mk' twoParts false (finImp none) = .ok d ∧
    AlgCfg.run ⟨.truthFinder (fin 0.5) (fin 0.3) (fin 0.5), .fixed 3, none⟩ d 100 clock {} = .ok r ∧ r.iterations = some 3 ∧
    AlgCfg.run ⟨.truthFinder (fin 0.5) (fin 0.3) (fin 0.5), .fixed 7, none⟩ d 100 clock {} = .ok r' ∧ r'.iterations = some 7 := by
  obtain ⟨d, hd⟩ := exists_dataset twoParts (by decide)
  obtain rfl := mk'_ex hd
  obtain ⟨r, h, e, -⟩ := (tf_implements (l := twoParts) none (.fixed 3) none 0.5 0.3 0.5 (by norm_num) (by norm_num)).run_fixed
    nofun (by simp [twoParts]) (N := 3) rfl (fuel := 100) (by norm_num) clock {}
  obtain ⟨r', h', e', -⟩ := (tf_implements (l := twoParts) none (.fixed 7) none 0.5 0.3 0.5 (by norm_num) (by norm_num)).run_fixed
    nofun (by simp [twoParts]) (N := 7) rfl (fuel := 100) (by norm_num) clock {}
  exact ⟨_, r, r', hd, h, e, h', e'⟩

end TD
