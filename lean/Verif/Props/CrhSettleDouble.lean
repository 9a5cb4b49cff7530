import Verif.Lemmas.CrhNear
import Verif.Lemmas.SameIterations
import Verif.Lemmas.CrhCosine
import Verif.Props.CrhPrecision
/-!
# CRH in double precision settles (C115)
-/

namespace TD
open Spec Double
attribute [-instance] instBEqProd
variable {S V X : Type} [DecidableEq S] [DecidableEq V] [DecidableEq X] {ω : Platform}
local notation "D" => FP (Rounding.binary64 ω)

/-- Trust scores of moderate size. -/
def CrhTrustOk (l : List (S × V × X)) (t : S → ℝ) : Prop := ∀ s ∈ allSources l, IsDouble (t s) ∧ (2 : ℝ) ^ (-60 : ℤ) ≤ t s ∧ t s ≤ 128

/-- One iteration, with the vectors that are compared. -/
theorem crh_accurate2 (l : List (S × V × X)) (f : Option (V → X → X → Option D)) (hl : l ≠ []) {e : ℝ}
    (he : IsDouble e) (he0 : (2 : ℝ) ^ (-60 : ℤ) ≤ e) (he1 : e ≤ 1)
    (hsize : (sources l).length * ((claims l).length * (claims l).length) ≤ 2 ^ 46)
    (t : Vec D) (p : Scores S V X) (hp : CrhGood l p.2) :
    ∃ s p', crhBody (FP.fin e) (matsOf l f) t ((claims l).map fun c => FP.fin (p.2 c)) = .ok (some s) ∧
      CrhIs l p' s.trust s.belief ∧ CrhAccurate l e p.2 p' ∧ CrhGood l p'.2 ∧ CrhTrustOk l p'.1 ∧ s.cmp1 = t ∧ s.cmp2 = s.trust := by
  have hC1 : 1 ≤ (claims l).length * (claims l).length :=
    Nat.mul_pos (List.length_pos_iff.2 (claims_ne hl)) (List.length_pos_iff.2 (claims_ne hl))
  have hS46 : (sources l).length ≤ 2 ^ 46 := (Nat.le_mul_of_pos_right _ hC1).trans hsize
  have hsz : (sources l).length * (4 * ((claims l).length * (claims l).length) + 1) ≤ 2 ^ 53 := by
    rw [Nat.mul_add, mul_one, Nat.mul_left_comm]
    omega
  obtain ⟨T, hT, h1⟩ := crh_trust_near l f hl he he0 he1 hsz hp p.1
  obtain ⟨B, hB, h2, h3⟩ := crh_belief_near l f hl hS46 (T := T) fun s hs => ⟨(h1 s hs).1, he0.trans (h1 s hs).2.1, (h1 s hs).2.2.1⟩
  refine ⟨⟨t, (sources l).map fun s => FP.fin (T s), (sources l).map fun s => FP.fin (T s), (claims l).map fun c => FP.fin (B c)⟩, (T, B),
    ?_, ⟨rfl, rfl⟩, ⟨fun s hs => ?_, fun c hc => ?_⟩, h2, fun s hs => ?_, rfl, rfl⟩
  · simp only [crhBody]
    rw [hT, hB]
  · rw [← length_sources, ← length_claims]
    exact (h1 s ((mem_allSources l).1 hs)).2.2.2
  · rw [← length_sources]
    exact h3 c ((mem_allClaims l).1 hc)
  · have := h1 s ((mem_allSources l).1 hs)
    exact ⟨this.1, he0.trans this.2.1, this.2.2.1⟩

/-- The scores of all iterations of a loop, and what the iterator remembers. -/
theorem crh_path (l : List (S × V × X)) {e : ℝ} {body : Vec D → Vec D → Except PyErr (Option (Step D))}
    (hbody : ∀ t (p : Scores S V X), CrhGood l p.2 → ∃ s p', body t ((claims l).map fun c => FP.fin (p.2 c)) = .ok (some s) ∧
      CrhIs l p' s.trust s.belief ∧ CrhAccurate l e p.2 p' ∧ CrhGood l p'.2 ∧ CrhTrustOk l p'.1 ∧ s.cmp1 = t ∧ s.cmp2 = s.trust)
    {m : Measure} {th : D} {lim : Int} {st : IterState D} {t b : Vec D} {n : Nat} {st' t' b' L}
    (h : Steps (.conv (some m) th lim) body st t b n st' t' b' L) : ∀ p : Scores S V X, CrhIs l p t b → CrhGood l p.2 →
    ∃ q : Nat → Scores S V X, q 0 = p ∧ (∀ j < n, CrhAccurate l e (q j).2 (q (j + 1)) ∧ CrhTrustOk l (q (j + 1)).1) ∧
      (∀ j ≤ n, CrhGood l (q j).2) ∧ CrhIs l (q n) t' b' ∧
      ∀ j < n, ∃ st2 t2 b2 L2 L3 y, Steps (.conv (some m) th lim) body st t b (j + 1) st2 t2 b2 L2 ∧
        Steps (.conv (some m) th lim) body st2 t2 b2 (n - (j + 1)) st' t' b' L3 ∧
        getDistance (some m) ((sources l).map fun s => (FP.fin ((q j).1 s) : D)) ((sources l).map fun s => (FP.fin ((q (j + 1)).1 s) : D)) =
          .ok y ∧ st2.dist = some y := by
  induction h with
  | refl => intro p hp hg; exact ⟨fun _ => p, rfl, by omega, fun _ _ => hg, hp, by omega⟩
  | cons hfin hbd hcmp hrest ih =>
    rename_i st t b s st1 n st' t' b' L
    intro p hp hg
    obtain ⟨ht, hb⟩ := hp
    subst hb
    obtain ⟨s', p', hs, his, hacc, hg', htr, hc1, hc2⟩ := hbody t p hg
    rw [hs] at hbd
    cases hbd
    obtain ⟨q, q0, q1, q2, q3, q4⟩ := ih p' his hg'
    refine ⟨fun j => match j with | 0 => p | j + 1 => q j, rfl, ?_, ?_, q3, ?_⟩
    · intro j hj
      cases j with
      | zero => dsimp only; rw [q0]; exact ⟨hacc, htr⟩
      | succ j => exact q1 j (by omega)
    · intro j hj
      cases j with
      | zero => exact hg
      | succ j => exact q2 j (by omega)
    · intro j hj
      cases j with
      | zero =>
        obtain ⟨y, hy, hd⟩ := Tracks.conv_compare hcmp
        refine ⟨st1, s.trust, s.belief, _, L, y, .cons hfin hs hcmp (.refl _ _ _), ?_, ?_, hd⟩
        · rw [show n + 1 - (0 + 1) = n by omega]; exact hrest
        · rw [hc1, hc2, his.1, ht] at hy
          dsimp only
          rw [q0]
          exact hy
      | succ j =>
        obtain ⟨st2, t2, b2, L2, L3, y, h1, h2, h3, h4⟩ := q4 j (by omega)
        refine ⟨st2, t2, b2, _, L3, y, .cons hfin hs hcmp h1, ?_, h3, h4⟩
        rwa [show n + 1 - (j + 1 + 1) = n - (j + 1) by omega]

/-- The computed distance of trust scores that are close to each other. -/
theorem crh_dist {l : List (S × V × X)} (hl : l ≠ []) (hn : (allSources l).card ≤ 2 ^ 46) {m : Measure} (hm : m ≠ .cosine)
    {x x' : S → ℝ} {δ : ℝ} (hx : CrhTrustOk l x) (hx' : CrhTrustOk l x') (hd : ∀ s ∈ allSources l, |x s - x' s| ≤ δ) :
    ∃ y, getDistance (some m) ((sources l).map fun s => (FP.fin (x s) : D)) ((sources l).map fun s => (FP.fin (x' s) : D)) = .ok (FP.fin y) ∧
      y ≤ 3 / 2 * ((allSources l).card * δ) + 1 / 2 ^ 51 := by
  have hcard : (sources l).length = (allSources l).card := length_sources l
  have big : (128 : ℝ) ≤ 2 ^ (400 : ℤ) := by
    have : (128 : ℝ) = 2 ^ (7 : ℤ) := by norm_num
    rw [this]
    exact zpow_le_zpow_right₀ one_le_two (by norm_num)
  have ok : ∀ {x : S → ℝ}, CrhTrustOk l x → ∀ s ∈ sources l, IsDouble (x s) ∧ |x s| ≤ 2 ^ (400 : ℤ) := fun {x} hx s hs => by
    have := hx s ((mem_allSources l).2 hs)
    exact ⟨this.1, by rw [abs_of_pos ((two_zpow_pos _).trans_le this.2.1)]; exact this.2.2.trans big⟩
  obtain ⟨D0, y, hy, herr⟩ := list_err (ω := ω) (nodup_sources l) (sources_ne hl) (by rw [hcard]; exact hn.trans (by norm_num)) m hm x x' (ok hx) (ok hx')
  rw [sources_toFinset] at D0
  rw [sources_toFinset, hcard] at herr
  refine ⟨y, hy, ?_⟩
  have hne := allSources_nonempty hl
  have hlip := distance_lip (allSources l) hne m hm x x' x' x'
  have h0 : Spec.distance m (allSources l) x' x' = 0 := by
    cases m with
    | l1 => simp [Spec.distance]
    | l2 => simp [Spec.distance, len2]
    | lInf =>
      obtain ⟨a, ha, e⟩ := top_mem (f := fun a => |x' a - x' a|) hne
      show top (allSources l) (fun a => |x' a - x' a|) = 0
      rw [← e]
      simp
    | cosine => exact absurd rfl hm
  have hsum : ∑ s ∈ allSources l, (|x s - x' s| + |x' s - x' s|) ≤ (allSources l).card * δ := by
    rw [← nsmul_eq_mul]
    refine Finset.sum_le_card_nsmul _ _ _ fun s hs => ?_
    rw [sub_self, abs_zero, add_zero]
    exact hd s hs
  rw [h0, zero_add] at hlip
  have ekk : kk ≤ 1 / 2 ^ 51 := by
    have : (1 : ℝ) / 2 ^ 51 = 2 ^ (-51 : ℤ) := by rw [zpow_neg, one_div]; norm_num
    rw [this]
    exact zpow_le_zpow_right₀ one_le_two (by norm_num)
  have euu : 4 * uu = 1 / 2 ^ 51 := by
    have : (1 : ℝ) / 2 ^ 51 = 2 ^ (-51 : ℤ) := by rw [zpow_neg, one_div]; norm_num
    rw [this, uu, show (4 : ℝ) = 2 ^ (2 : ℤ) by norm_num, ← zpow_add₀ two_ne_zero]
    norm_num
  rw [euu] at herr
  have hn' : ((allSources l).card : ℝ) ≤ 2 ^ 46 := by exact_mod_cast hn
  have hle := hlip.trans hsum
  have h1 := (abs_le.1 herr).2
  have h2 : (((allSources l).card : ℝ) + 2) * (1 / 2 ^ 51) ≤ 1 / 2 := by linarith
  have h3 := mul_le_mul_of_nonneg_right h2 D0
  linarith

/-- The computed distance of the trust scores of two iterations that are close to each other is below the threshold. -/
theorem crh_below {l : List (S × V × X)} (hl : l ≠ []) (hn : (allSources l).card ≤ 2 ^ 46) {m : Measure} {th e : ℝ} (he : 0 < e)
    (hm : m = .cosine → th ≤ 1 / 4) (hth : 64 * (allSources l).card * ((10 * (allSources l).card + 1153) / 2 ^ 52) ≤ th)
    (hτ : crhTau (allSources l).card (allClaims l).card ≤ 1 / 8) {b b' : V × X → ℝ} {p p' : Scores S V X} (hp : CrhAccurate l e b p)
    (hp' : CrhAccurate l e b' p') {δ : ℝ} (hδ : (allSources l).card * δ ≤ th / 2) (hx : CrhTrustOk l p.1) (hx' : CrhTrustOk l p'.1)
    (hd : ∀ s ∈ allSources l, |p.1 s - p'.1 s| ≤ δ) :
    ∃ y, getDistance (some m) ((sources l).map fun s => (FP.fin (p.1 s) : D)) ((sources l).map fun s => (FP.fin (p'.1 s) : D)) = .ok (FP.fin y) ∧
      y < th := by
  have hne := allSources_nonempty hl
  have hn1 : (1 : ℝ) ≤ (allSources l).card := by exact_mod_cast hne.card_pos
  by_cases hc : m = .cosine
  · subst hc
    have h4 := hm rfl
    have hth0 : 0 < th := lt_of_lt_of_le (by positivity) hth
    have hn40 : (allSources l).card ≤ 2 ^ 40 := by
      by_contra hbig
      have : (2 : ℝ) ^ 40 ≤ (allSources l).card := by exact_mod_cast (not_le.1 hbig).le
      rw [← mul_div_assoc, div_le_iff₀ (by positivity)] at hth
      nlinarith
    have hpos : ∀ {x : S → ℝ}, CrhTrustOk l x → ∀ s ∈ allSources l, 0 < x s := fun hx s hs => (two_zpow_pos _).trans_le (hx s hs).2.1
    have big : (128 : ℝ) ≤ 2 ^ (400 : ℤ) := by
      have : (128 : ℝ) = 2 ^ (7 : ℤ) := by norm_num
      rw [this]
      exact zpow_le_zpow_right₀ one_le_two (by norm_num)
    have ok : ∀ {x : S → ℝ}, CrhTrustOk l x → ∀ s ∈ sources l, |x s| ≤ 2 ^ (400 : ℤ) := fun hx s hs => by
      have hs' := (mem_allSources l).2 hs
      rw [abs_of_pos (hpos hx s hs')]
      exact (hx s hs').2.2.trans big
    have long : ∀ {x : S → ℝ}, CrhTrustOk l x → (2 : ℝ) ^ (-400 : ℤ) ≤ len2 (allSources l) x := fun hx => by
      obtain ⟨s, hs⟩ := hne
      exact len2_ge hs (two_zpow_pos _).le ((zpow_le_zpow_right₀ one_le_two (by norm_num)).trans (hx s hs).2.1)
    obtain ⟨y, hy, herr⟩ := cosine_computed_wide (ω := ω) hl hn40 p.1 p'.1 (ok hx) (ok hx') (long hx) (long hx')
    refine ⟨y, hy, ?_⟩
    have hnoise : (((allSources l).card : ℝ) + 2) / 2 ^ 48 ≤ th / 4 := by
      refine le_trans ?_ (div_le_div_of_nonneg_right hth (by norm_num))
      rw [← mul_div_assoc, div_div, div_le_div_iff₀ (by positivity) (by positivity)]
      nlinarith
    have hdist : Spec.distance .cosine (allSources l) p.1 p'.1 ≤ th / 2 := by
      by_cases h1 : (allSources l).card = 1
      · rw [cosine_single _ h1 (hpos hx) (hpos hx')]
        linarith
      · have h2 : 2 ≤ (allSources l).card := by have := hne.card_pos; omega
        obtain ⟨s, hs, hs2⟩ := crh_long he h2 hτ hp
        obtain ⟨r, hr, hr2⟩ := crh_long he h2 hτ hp'
        refine (cosine_close (allSources l) (η := th / 2) (len2_ge hs (by norm_num) hs2) (len2_ge hr (by norm_num) hr2) ?_).trans ?_
        · refine le_trans ?_ hδ
          rw [← nsmul_eq_mul]
          exact Finset.sum_le_card_nsmul _ _ _ hd
        · nlinarith
    have := (abs_le.1 herr).2
    linarith
  · obtain ⟨y, hy, hle⟩ := crh_dist (ω := ω) hl hn hc hx hx' hd
    refine ⟨y, hy, ?_⟩
    have h8 : 8 / 2 ^ 51 ≤ th := by
      refine le_trans ?_ hth
      rw [← mul_div_assoc, div_le_div_iff₀ (by positivity) (by positivity)]
      nlinarith
    have : (0 : ℝ) < 1 / 2 ^ 51 := by positivity
    have h9 : (8 : ℝ) / 2 ^ 51 = 8 * (1 / 2 ^ 51) := by ring
    linarith

/-- **C115.** On a complete dataset CRH in double precision settles: a run with a `ConvergenceIterator`
succeeds, if its threshold is at least `crhFloor` (and at most 1/4 in the case of the cosine measure, whose distances never
exceed 1) and its limit at least `crhSteps`, and needs no more iterations than that. -/
theorem C115_settles (l : List (S × V × X)) (am : Bool) (f : Option (V → X → X → Option D)) (d : Dataset S V X D)
    (hd : Dataset.mk' l am f = .ok d) (hC : EveryoneClaims l) (hl : l ≠ [])
    (hsize : (allSources l).card * (allClaims l).card ^ 2 ≤ 2 ^ 46)
    (e : ℝ) (he : IsDouble e) (he0 : (2 : ℝ) ^ (-60 : ℤ) ≤ e) (he1 : e ≤ 1) (m : Measure) (th : ℝ) (hm : m = .cosine → th ≤ 1 / 4)
    (hth : crhFloor (allSources l).card (allClaims l).card e ≤ th) (pr : Option Prior) (limit : Int) (fuel : Nat) (clock : Nat → D)
    (st : IterState D) (hlim : crhSteps (allSources l).card (allClaims l).card e th ≤ (limit : ℝ)) (hfuel : limit < (fuel : Int)) :
    ∃ r, (⟨.crh (FP.fin e), .conv (some m) (FP.fin th) limit, pr⟩ : AlgCfg D).run d fuel clock st = .ok r ∧
      ∃ n : Nat, r.iterations = some n ∧ (n : ℝ) ≤ crhSteps (allSources l).card (allClaims l).card e th := by
  obtain rfl := ((mk'_ok_iff l one_ne_zero_fp am f d).1 hd).1
  have ep : 0 < e := (two_zpow_pos _).trans_le he0
  have hne := allSources_nonempty hl
  have hn1 : (1 : ℝ) ≤ (allSources l).card := by exact_mod_cast hne.card_pos
  have hmN : 1 ≤ (allClaims l).card := by
    have : (allClaims l).Nonempty := by
      obtain ⟨c, hc⟩ := List.exists_mem_of_ne_nil _ (claims_ne hl)
      exact ⟨c, (mem_allClaims l).2 hc⟩
    exact this.card_pos
  have hm1 : (1 : ℝ) ≤ (allClaims l).card := by exact_mod_cast hmN
  have hS46 : (allSources l).card ≤ 2 ^ 46 := (Nat.le_mul_of_pos_right _ (pow_pos hmN 2)).trans hsize
  have hC46 : (allClaims l).card ≤ 2 ^ 46 :=
    ((Nat.le_self_pow two_ne_zero _).trans (Nat.le_mul_of_pos_left _ hne.card_pos)).trans hsize
  have hsz := hsize
  rw [← length_sources, ← length_claims, pow_two] at hsz
  have hτ : crhTau (allSources l).card (allClaims l).card ≤ 1 / 8 := by
    have h1 : ((allSources l).card : ℝ) ≤ 2 ^ 46 := by exact_mod_cast hS46
    have h2 : ((allClaims l).card : ℝ) ≤ 2 ^ 46 := by exact_mod_cast hC46
    unfold crhTau
    rw [div_le_iff₀ (by positivity)]
    linarith
  have hlog := Real.log_nonneg hn1
  have hη0 : 0 < crhEta (allSources l).card (allClaims l).card := by unfold crhEta; positivity
  have hτη : crhTau (allSources l).card (allClaims l).card ≤ crhEta (allSources l).card (allClaims l).card := by
    unfold crhTau crhEta
    refine div_le_div_of_nonneg_right ?_ (by positivity)
    linarith
  have hη51 : 8 / 2 ^ 51 ≤ crhEta (allSources l).card (allClaims l).card := by
    unfold crhEta
    rw [div_le_div_iff₀ (by positivity) (by positivity)]
    linarith
  have hth' : 64 * (allSources l).card * (allClaims l).card ^ 2 * crhEta (allSources l).card (allClaims l).card / e ≤ th := hth
  have hth2 : 64 * (allSources l).card * ((10 * (allSources l).card + 1153) / 2 ^ 52) ≤ th := by
    refine le_trans ?_ hth'
    rw [le_div_iff₀ ep]
    have h1 : (10 * ((allSources l).card : ℝ) + 1153) / 2 ^ 52 ≤ crhEta (allSources l).card (allClaims l).card := by
      unfold crhEta
      refine div_le_div_of_nonneg_right ?_ (by positivity)
      linarith
    have h2 : 64 * ((allSources l).card : ℝ) ≤ 64 * (allSources l).card * (allClaims l).card ^ 2 :=
      le_mul_of_one_le_right (by positivity) (one_le_pow₀ hm1)
    exact (mul_le_of_le_one_right (by positivity) he1).trans (mul_le_mul h2 h1 (by positivity) (by positivity))
  have hfl : crhEta (allSources l).card (allClaims l).card ≤ th := by
    refine le_trans ?_ hth'
    rw [le_div_iff₀ ep, mul_comm]
    refine mul_le_mul_of_nonneg_right (he1.trans ?_) hη0.le
    nlinarith [mul_le_mul hn1 (one_le_pow₀ (n := 2) hm1) zero_le_one (zero_le_one.trans hn1)]
  have hth0 : 0 < th := hη0.trans_le hfl
  -- the constants
  obtain ⟨κ, hκ⟩ : ∃ κ : ℝ, κ = th * e / (32 * (allSources l).card * (allClaims l).card) := ⟨_, rfl⟩
  have hκ0 : 0 < κ := by rw [hκ]; positivity
  have hκη : 2 * (allClaims l).card * crhEta (allSources l).card (allClaims l).card ≤ κ := by
    rw [div_le_iff₀ ep] at hth'
    rw [hκ, le_div_iff₀ (by positivity)]
    linarith
  have hη2 : 2 * (allClaims l).card * crhEta (allSources l).card (allClaims l).card ^ 2 ≤ κ ^ 2 := by
    have h1 := pow_le_pow_left₀ (by positivity) hκη 2
    have h2 : 2 * ((allClaims l).card : ℝ) * crhEta (allSources l).card (allClaims l).card ^ 2 ≤
        (2 * (allClaims l).card * crhEta (allSources l).card (allClaims l).card) ^ 2 := by
      rw [mul_pow]
      exact mul_le_mul_of_nonneg_right (by nlinarith) (sq_nonneg _)
    exact h2.trans h1
  obtain ⟨E, hE⟩ : ∃ E : ℝ, E = ((allSources l).card * (e + 4 * (allClaims l).card)) * (e + Real.log (allSources l).card) := ⟨_, rfl⟩
  have hE0 : 0 ≤ E := by rw [hE]; positivity
  obtain ⟨K, hKdef⟩ : ∃ K : Nat, K = ⌊2 * E / (e * κ ^ 2)⌋₊ + 1 := ⟨_, rfl⟩
  have hB0 : 0 ≤ 2 * E / (e * κ ^ 2) := by positivity
  have hK1 : (K : ℝ) ≤ 2 * E / (e * κ ^ 2) + 1 := by rw [hKdef]; push_cast; linarith [Nat.floor_le hB0]
  have hK2 : 2 * E < K * (e * κ ^ 2) := by
    rw [← div_lt_iff₀ (by positivity), hKdef]
    push_cast
    exact Nat.lt_floor_add_one _
  have hsteps : (K : ℝ) + 1 ≤ crhSteps (allSources l).card (allClaims l).card e th := by
    have : 2 * E / (e * κ ^ 2) + 2 = crhSteps (allSources l).card (allClaims l).card e th := by
      unfold crhSteps
      rw [hE, hκ]
      congr 1
      field_simp
      ring
    linarith
  have hKlim : (K : Int) + 1 ≤ limit := by
    have : (((K : Int) + 1 : Int) : ℝ) ≤ (limit : ℝ) := by push_cast; linarith
    exact_mod_cast this
  have hsmall : (allSources l).card * (8 * (allClaims l).card * (κ + crhEta (allSources l).card (allClaims l).card) / e +
      2 * crhTau (allSources l).card (allClaims l).card) ≤ th / 2 := by
    have h1 : (allSources l).card * (8 * (allClaims l).card * κ / e) = th / 4 := by
      rw [hκ]
      field_simp
      norm_num
    have h2 : 2 * crhTau (allSources l).card (allClaims l).card ≤ 2 * (allClaims l).card * crhEta (allSources l).card (allClaims l).card / e := by
      rw [le_div_iff₀ ep]
      have h3 : crhTau (allSources l).card (allClaims l).card * e ≤ crhEta (allSources l).card (allClaims l).card * 1 :=
        mul_le_mul hτη he1 ep.le hη0.le
      nlinarith
    have h4 : (allSources l).card * (8 * (allClaims l).card * crhEta (allSources l).card (allClaims l).card / e +
        2 * (allClaims l).card * crhEta (allSources l).card (allClaims l).card / e) ≤ th / 4 := by
      have h5 : (allSources l).card * (8 * (allClaims l).card * crhEta (allSources l).card (allClaims l).card / e +
        2 * (allClaims l).card * crhEta (allSources l).card (allClaims l).card / e) =
          10 * (allSources l).card * (allClaims l).card * crhEta (allSources l).card (allClaims l).card / e := by ring
      rw [h5, div_le_iff₀ ep]
      rw [div_le_iff₀ ep] at hth'
      have h6 : ((allClaims l).card : ℝ) ≤ (allClaims l).card ^ 2 := by nlinarith
      have h7 := mul_le_mul_of_nonneg_left h6 (show 0 ≤ (allSources l).card * crhEta (allSources l).card (allClaims l).card by positivity)
      nlinarith [mul_pos (zero_lt_one.trans_le hn1) (mul_pos (zero_lt_one.trans_le hm1) hη0)]
    have h8 := mul_le_mul_of_nonneg_left h2 (zero_le_one.trans hn1)
    rw [mul_add] at h4
    rw [mul_add (8 * ((allClaims l).card : ℝ)), add_div, mul_add, mul_add, h1]
    linarith
  -- the run
  have h0 : (matsOf l f).numClaims ≠ 0 := fun e => hl ((numClaims_zero l f).1 e)
  have hS53 : (sources l).length ≤ 2 ^ 53 := by rw [length_sources]; exact hS46.trans (by norm_num)
  obtain ⟨t0, b0, hi, hg, -⟩ := crh_start l f hl hS53 (.conv (some m) (FP.fin th) limit) pr (FP.fin e)
  have ht0 : t0 = (sources l).map fun _ => (FP.fin 0 : D) := by
    simp only [AlgCfg.init] at hi
    injection hi with hi
    injection hi with hi1
    rw [← hi1]
    simp only [zeros, List.map_const', FP.zero_eq]
    rfl
  have his : CrhIs l ((fun _ => 0, b0) : Scores S V X) t0 ((claims l).map fun c => FP.fin (b0 c)) := ⟨ht0, rfl⟩
  have hbody := fun t p hp => crh_accurate2 (ω := ω) l f hl he he0 he1 hsz t p hp
  have done : ∀ n st' t b L, Steps (.conv (some m) (FP.fin th) limit) (crhBody (FP.fin e) (matsOf l f)) {} t0 ((claims l).map fun c => FP.fin (b0 c)) n st' t b L →
      n ≤ K + 1 → (IterCfg.conv (some m) (FP.fin th) limit).finished st' = .ok true →
      ∃ r, (⟨.crh (FP.fin e), .conv (some m) (FP.fin th) limit, pr⟩ : AlgCfg D).exec (matsOf l f) fuel st = .ok r ∧ r.iterations ≤ K + 1 := by
    intro n st' t b L hs hn hf
    refine ⟨⟨t, b, n, initLog ⟨.crh (FP.fin e), .conv (some m) (FP.fin th) limit, pr⟩ t0 ((claims l).map fun c => FP.fin (b0 c)) ++ L⟩, (exec_ok_iff _ _ _ _ _).2 ?_, hn⟩
    exact ⟨h0, _, _, n, st', t, b, L, hi, by omega, hs, .inl hf, finish_other (c := ⟨.crh (FP.fin e), .conv (some m) (FP.fin th) limit, pr⟩) (by nofun) t b, rfl, rfl⟩
  have prog : ∀ n ≤ K + 1, (∃ r, (⟨.crh (FP.fin e), .conv (some m) (FP.fin th) limit, pr⟩ : AlgCfg D).exec (matsOf l f) fuel st = .ok r ∧ r.iterations ≤ K + 1) ∨
      ∃ st' t b L, Steps (.conv (some m) (FP.fin th) limit) (crhBody (FP.fin e) (matsOf l f)) {} t0 ((claims l).map fun c => FP.fin (b0 c)) n st' t b L := by
    intro n
    induction n with
    | zero => exact fun _ => .inr ⟨_, _, _, _, .refl _ _ _⟩
    | succ n ih =>
      intro hn
      rcases ih (by omega) with h | ⟨st', t, b, L, hs⟩
      · exact .inl h
      · cases hf : (IterCfg.conv (some m) (FP.fin th : D) limit).finished st' with
        | error e =>
          exfalso
          have hcnt : st'.itCount = n := by have := hs.itCount; simpa using this
          simp only [IterCfg.finished, hcnt] at hf
          split at hf
          · cases hf
          · split at hf
            · omega
            · cases hf
        | ok B =>
          cases B with
          | true => exact .inl (done _ _ _ _ _ hs (by omega) hf)
          | false =>
            obtain ⟨q, -, -, q2, q3, -⟩ := crh_path l hbody hs _ his hg
            obtain ⟨s, p', hb, hp', -, -, -, hc1, hc2⟩ := hbody t (q n) (q2 n le_rfl)
            rw [← q3.2] at hb
            obtain ⟨y, hy⟩ : ∃ y, getDistance (some m) s.cmp1 s.cmp2 = .ok y := by
              rw [hc1, hc2, q3.1, hp'.1]
              obtain ⟨a, as, ha⟩ := List.exists_cons_of_ne_nil (sources_ne hl)
              rw [ha]
              cases m with
              | l1 => exact ⟨_, rfl⟩
              | l2 => exact ⟨_, rfl⟩
              | lInf => exact ⟨_, rfl⟩
              | cosine =>
                simp only [getDistance]
                split
                · exact ⟨_, rfl⟩
                · exact ⟨_, rfl⟩
            obtain ⟨st'', hst''⟩ : ∃ st'', (IterCfg.conv (some m) (FP.fin th : D) limit).compare st' s.cmp1 s.cmp2 = .ok st'' := by
              simp only [IterCfg.compare, bind, Except.bind, hy]
              exact ⟨_, rfl⟩
            exact .inr ⟨_, _, _, _, hs.append (.cons hf hb hst'' (.refl _ _ _))⟩
  have final : ∃ r, (⟨.crh (FP.fin e), .conv (some m) (FP.fin th) limit, pr⟩ : AlgCfg D).exec (matsOf l f) fuel st = .ok r ∧ r.iterations ≤ K + 1 := by
    rcases prog (K + 1) le_rfl with h | ⟨st', t, b, L, hs⟩
    · exact h
    · obtain ⟨q, -, q1, q2, -, q4⟩ := crh_path l hbody hs _ his hg
      obtain ⟨j, hj, hclose⟩ := crh_near_settles hC hl ep hκ0 hτ hη2 (by rw [← hE]; exact hK2) (fun j hj => (q1 j hj).1)
        (fun j hj c hc => by
          have := q2 j hj c ((mem_allClaims l).1 hc)
          exact ⟨(two_zpow_pos _).le.trans this.2.1, this.2.2⟩)
        (fun j hj s hs => (two_zpow_pos _).trans_le ((q1 j hj).2 s hs).2.1)
      obtain ⟨st2, t2, b2, L2, L3, y, g1, g2, g3, g4⟩ := q4 (j + 1) (by omega)
      obtain ⟨y', hy', hle⟩ := crh_below (ω := ω) hl hS46 ep hm hth2 hτ (q1 j (by omega)).1 (q1 (j + 1) (by omega)).1 hsmall (q1 j (by omega)).2 (q1 (j + 1) (by omega)).2 hclose
      rw [hy'] at g3
      cases g3
      refine done _ _ _ _ _ g1 (by omega) ?_
      simp only [IterCfg.finished, IterState.below, g4, FP.lt_fin]
      rw [if_pos]
      exact decide_eq_true hle
  obtain ⟨r, hr, hit⟩ := final
  refine ⟨_, by rw [run_eq, hr], r.iterations, rfl, ?_⟩
  have : ((r.iterations : Nat) : ℝ) ≤ ((K + 1 : Nat) : ℝ) := by exact_mod_cast hit
  push_cast at this
  linarith

/-- Two sources that disagree about a variable and agree about another one: with eps = 1 and threshold 1/10, CRH in doubles settles. -/
example (clock : Nat → D) (m : Measure) : ∃ (d : Dataset Nat Nat Nat D) (r : Result Nat Nat Nat D) (n : Nat),
    Dataset.mk' fullTriples false none = .ok d ∧
    (⟨.crh (FP.fin 1), .conv (some m) (FP.fin (1 / 10)) 1000000000, none⟩ : AlgCfg D).run d 1000000001 clock = .ok r ∧
    r.iterations = some n ∧ n ≤ 1000000000 := by
  have hd := (mk'_ok_iff fullTriples (one_ne_zero_fp (R := .binary64 ω)) false none _).2
    ⟨rfl, .inr (by simp [NoRepeats, fullTriples]), by simp [optImpBad]⟩
  have h1 : (allSources fullTriples).card = 2 := by decide
  have h2 : (allClaims fullTriples).card = 3 := by decide
  have h3 := Real.log_le_sub_one_of_pos (x := (2 : ℝ)) (by norm_num)
  have hbound : crhSteps (allSources fullTriples).card (allClaims fullTriples).card 1 (1 / 10) ≤ 1000000000 := by
    rw [h1, h2]
    unfold crhSteps
    push_cast
    norm_num
    linarith
  have hone : IsDouble 1 := ⟨1, 0, by norm_num, by norm_num, by norm_num, by norm_num⟩
  obtain ⟨r, hr, n, hn, hle⟩ := C115_settles fullTriples false none _ hd full_complete (by decide) (by decide) 1 hone
    (zpow_le_one_of_nonpos₀ one_le_two (by norm_num)) le_rfl m (1 / 10) (fun _ => by norm_num)
    (by rw [h1, h2]; unfold crhFloor; norm_num) none 1000000000 1000000001 clock {} (by exact_mod_cast hbound) (by norm_num)
  exact ⟨_, r, n, hd, hr, hn, by exact_mod_cast hle.trans hbound⟩

end TD
