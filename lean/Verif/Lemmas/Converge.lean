import Verif.Lemmas.Unbounded
import Verif.Lemmas.Spectral
import Verif.Lemmas.Distance
import Mathlib.Topology.Order.Lattice
import Mathlib.Algebra.Order.Star.Real
/-! The iterates of (unbounded) Sums as powers of a positive semidefinite matrix. -/

namespace TD
open Spec Ex Filter Topology
attribute [-instance] instBEqProd

variable {S V X : Type} [DecidableEq S] [DecidableEq V] [DecidableEq X]
variable (l : List (S × V × X))

/-- The source-claim matrix over labels. -/
noncomputable def scMat : Matrix {s // s ∈ allSources l} {c // c ∈ allClaims l} ℝ :=
  fun s c => if (s.1, c.1) ∈ recorded l then 1 else 0

theorem scMat_mulVec (b : V × X → ℝ) (s : {s // s ∈ allSources l}) :
    (scMat l).mulVec (fun c => b c.1) s = sumTrust l b s.1 := by
  simp only [Matrix.mulVec, dotProduct, scMat, sumTrust, claimsOf]
  rw [Finset.sum_filter, Finset.univ_eq_attach,
    Finset.sum_attach (allClaims l) (fun c => (if (s.1, c) ∈ recorded l then 1 else 0) * b c)]
  apply Finset.sum_congr rfl
  intro c _
  split <;> simp

theorem scMatT_mulVec (t : S → ℝ) (c : {c // c ∈ allClaims l}) :
    (scMat l).conjTranspose.mulVec (fun s => t s.1) c = sumBelief l t c.1 := by
  simp only [Matrix.mulVec, dotProduct, scMat, sumBelief, sourcesOf, Matrix.conjTranspose_apply]
  rw [Finset.sum_filter, Finset.univ_eq_attach,
    Finset.sum_attach (allSources l) (fun s => star (if (s, c.1) ∈ recorded l then (1 : ℝ) else 0) * t s)]
  apply Finset.sum_congr rfl
  intro s _
  split <;> simp

theorem usums_succ (prior : V × X → ℝ) (k : Nat) :
    usums l prior (k + 1) = usumsStep l (usums l prior k) := by
  unfold usums; rw [Function.iterate_succ_apply']

theorem usums_trust (prior : V × X → ℝ) (k : Nat) (s : S) :
    (usums l prior (k + 2)).1 s = sumTrust l (sumBelief l (usums l prior (k + 1)).1) s := by
  rw [usums_succ, usums_succ]; rfl

theorem usums_powers (prior : V × X → ℝ) :
    ∃ (lam : {s // s ∈ allSources l} → ℝ) (C : {s // s ∈ allSources l} → {s // s ∈ allSources l} → ℝ),
      (∀ j, 0 ≤ lam j) ∧ ∀ (k : Nat) (s : {s // s ∈ allSources l}),
        (usums l prior (k + 1)).1 s.1 = ∑ j, C j s * lam j ^ k := by
  obtain ⟨lam, C, h1, h2⟩ := Spectral.iterate_eq
    (Matrix.posSemidef_self_mul_conjTranspose (scMat l)) (fun s => (usums l prior 1).1 s.1)
  refine ⟨lam, C, h1, ?_⟩
  intro k s
  rw [← h2 k s]
  have : (fun s : {s // s ∈ allSources l} => (usums l prior (k + 1)).1 s.1) =
      (fun w => (scMat l * (scMat l).conjTranspose).mulVec w)^[k] (fun s => (usums l prior 1).1 s.1) := by
    induction k with
    | zero => rfl
    | succ k ih =>
      rw [Function.iterate_succ_apply', ← ih]
      funext s
      rw [← Matrix.mulVec_mulVec]
      have : (scMat l).conjTranspose.mulVec (fun s => (usums l prior (k + 1)).1 s.1) =
          fun c => sumBelief l (usums l prior (k + 1)).1 c.1 := by
        funext c; exact scMatT_mulVec l _ c
      rw [this, scMat_mulVec, usums_trust]
  exact congrFun this s

/-- The ranking of the trust vector eventually stops changing. -/
theorem usums_settles (prior : V × X → ℝ) :
    ∃ N, ∀ k, N ≤ k → SameOrder (allSources l) (usums l prior k).1 (usums l prior (k + 1)).1 := by
  obtain ⟨lam, C, h1, h2⟩ := usums_powers l prior
  have key : ∀ᶠ k : Nat in atTop, ∀ p : {s // s ∈ allSources l} × {s // s ∈ allSources l},
      ((usums l prior (k + 1)).1 p.1.1 < (usums l prior (k + 1)).1 p.2.1 ↔
       (usums l prior (k + 2)).1 p.1.1 < (usums l prior (k + 2)).1 p.2.1) := by
    rw [eventually_all]
    rintro ⟨s, r⟩
    have hd : ∀ k, (usums l prior (k + 1)).1 r.1 - (usums l prior (k + 1)).1 s.1 =
        ∑ j, (C j r - C j s) * lam j ^ k := by
      intro k
      rw [h2, h2, ← Finset.sum_sub_distrib]
      exact Finset.sum_congr rfl fun j _ => by ring
    have hiff : ∀ k, (usums l prior (k + 1)).1 s.1 < (usums l prior (k + 1)).1 r.1 ↔
        0 < ∑ j, (C j r - C j s) * lam j ^ k := by
      intro k; rw [← hd, sub_pos]
    rcases Spectral.eventually_sign lam h1 (fun j => C j r - C j s) with h | h | h
    · filter_upwards [h, (tendsto_add_atTop_nat 1).eventually h] with k ha hb
      rw [hiff k, hiff (k + 1)]
      exact ⟨fun _ => hb, fun _ => ha⟩
    · filter_upwards [h, (tendsto_add_atTop_nat 1).eventually h] with k ha hb
      rw [hiff k, hiff (k + 1)]
      exact ⟨fun h => absurd h (not_lt.2 ha.le), fun h => absurd h (not_lt.2 hb.le)⟩
    · filter_upwards [h, (tendsto_add_atTop_nat 1).eventually h] with k ha hb
      rw [hiff k, hiff (k + 1), ha, hb]
  obtain ⟨N, hN⟩ := eventually_atTop.1 key
  refine ⟨N + 1, ?_⟩
  intro k hk a ha b hb
  obtain ⟨j, rfl⟩ : ∃ j, k = j + 1 := ⟨k - 1, by omega⟩
  exact hN j (by omega) (⟨a, ha⟩, ⟨b, hb⟩)

theorem exists_settled (prior : V × X → ℝ) (th : Int) : ∃ k, Settled l prior th k := by
  obtain ⟨N, hN⟩ := usums_settles l prior
  refine ⟨N + th.toNat, ?_, ?_⟩
  · push_cast; omega
  · intro i hi hki
    push_cast at hki
    exact hN i (by omega)

/-! ### Sums -/

variable {l}

theorem top_smul {A : Type} (F : Finset A) (f : A → ℝ) {r : ℝ} (hr : 0 < r) :
    top F (fun a => r * f a) = r * top F f := by
  by_cases hF : F.Nonempty
  · obtain ⟨a, ha, e⟩ := top_mem (f := f) hF
    refine top_eq_of (fun b hb => ?_) ⟨a, ha, by rw [e]⟩
    exact mul_le_mul_of_nonneg_left (le_top hb) hr.le
  · simp [top, hF]

theorem scaled_smul {A : Type} (F : Finset A) (f : A → ℝ) {r : ℝ} (hr : 0 < r) :
    scaled F (fun a => r * f a) = scaled F f := by
  funext a
  unfold scaled
  rw [top_smul F f hr, mul_div_mul_left _ _ hr.ne']

theorem normBoth_smul (p : Scores S V X) {a b : ℝ} (ha : 0 < a) (hb : 0 < b) :
    normBoth l ((fun s => a * p.1 s), fun c => b * p.2 c) = normBoth l p := by
  unfold normBoth
  simp only [scaled_smul _ _ ha, scaled_smul _ _ hb]

theorem usums_pos {prior : V × X → ℝ} (hp : ∀ c ∈ claims l, 0 < prior c) (k : Nat) :
    (∀ c ∈ claims l, 0 < (usums l prior k).2 c) ∧
    (∀ s ∈ sources l, 0 < (usums l prior (k + 1)).1 s) := by
  induction k with
  | zero =>
    refine ⟨hp, ?_⟩
    intro s hs
    rw [usums_succ]; exact sumTrust_pos hp hs
  | succ k ih =>
    have h1 : ∀ c ∈ claims l, 0 < (usums l prior (k + 1)).2 c := by
      intro c hc
      rw [usums_succ]
      exact sumBelief_pos (fun s hs => sumTrust_pos ih.1 hs) hc
    refine ⟨h1, ?_⟩
    intro s hs
    rw [usums_succ]; exact sumTrust_pos h1 hs

/-- Sums is UnboundedSums normalised at the end. -/
theorem sums_eq_usums (hl : l ≠ []) {prior : V × X → ℝ} (hp : ∀ c ∈ claims l, 0 < prior c) (k : Nat) :
    (sumsStep l)^[k + 1] ((fun _ => 0), prior) = normBoth l (usums l prior (k + 1)) ∧
    ∃ b : ℝ, 0 < b ∧ ((sumsStep l)^[k] ((fun _ => 0), prior)).2 =
      fun c => b * (usums l prior k).2 c := by
  have step : ∀ (p q : Scores S V X) (b : ℝ), 0 < b → p.2 = (fun c => b * q.2 c) →
      sumsStep l p = normBoth l (usumsStep l q) := by
    intro p q b hb e
    unfold sumsStep usumsStep
    rw [e, sumTrust_smul]
    simp only
    rw [sumBelief_smul]
    exact normBoth_smul (l := l) (sumTrust l q.2, sumBelief l (sumTrust l q.2)) hb hb
  induction k with
  | zero =>
    have h0 : ((sumsStep l)^[0] ((fun _ => (0 : ℝ)), prior)).2 = fun c => 1 * (usums l prior 0).2 c := by
      funext c; simp [usums]
    refine ⟨?_, 1, one_pos, h0⟩
    rw [Function.iterate_succ_apply', usums_succ]
    exact step _ _ 1 one_pos h0
  | succ k ih =>
    have htop := topC_pos hl (usums_pos hp (k + 1)).1
    have h1 : ((sumsStep l)^[k + 1] ((fun _ => (0 : ℝ)), prior)).2 =
        fun c => (top (allClaims l) (usums l prior (k + 1)).2)⁻¹ * (usums l prior (k + 1)).2 c := by
      rw [ih.1]
      funext c
      simp only [normBoth, scaled]
      rw [div_eq_inv_mul]
    refine ⟨?_, _, inv_pos.2 htop, h1⟩
    rw [Function.iterate_succ_apply', usums_succ]
    exact step _ _ _ (inv_pos.2 htop) h1

theorem tendsto_top {A : Type} {F : Finset A} {f : Nat → A → ℝ} {g : A → ℝ}
    (h : ∀ a ∈ F, Tendsto (fun k => f k a) atTop (𝓝 (g a))) :
    Tendsto (fun k => top F (f k)) atTop (𝓝 (top F g)) := by
  by_cases hF : F.Nonempty
  · simp only [top, hF, dite_true]
    exact Filter.Tendsto.finset_sup'_nhds_apply hF h
  · simp [top, hF]

/-- The iterates of (unbounded) Sums divided by the powers of a suitable number converge; hence so do those of
Sums. -/
theorem sums_growth (hl : l ≠ []) {prior : V × X → ℝ} (hp : ∀ c ∈ claims l, 0 < prior c) :
    ∃ (mu : ℝ) (T : S → ℝ), 0 < mu ∧ (∀ s ∈ allSources l, 0 ≤ T s) ∧ 0 < top (allSources l) T ∧
      0 < top (allClaims l) (sumBelief l T) ∧
      (∀ s ∈ allSources l, Tendsto (fun k : Nat => (usums l prior (k + 1)).1 s / mu ^ k) atTop (𝓝 (T s))) ∧
      (∀ c ∈ allClaims l, Tendsto (fun k : Nat => (usums l prior (k + 1)).2 c / mu ^ k) atTop
        (𝓝 (sumBelief l T c))) ∧
      (∀ s ∈ allSources l, Tendsto (fun k => ((sumsStep l)^[k] ((fun _ => 0), prior)).1 s) atTop
        (𝓝 (scaled (allSources l) T s))) ∧
      (∀ c ∈ allClaims l, Tendsto (fun k => ((sumsStep l)^[k] ((fun _ => 0), prior)).2 c) atTop
        (𝓝 (scaled (allClaims l) (sumBelief l T) c))) := by
  classical
  obtain ⟨lam, C, h1, h2⟩ := usums_powers l prior
  rcases Spectral.dominant lam h1 C with hz | ⟨mu, hmu, B, ⟨s0, hs0⟩, hB⟩
  · exfalso
    obtain ⟨s, hs⟩ := allSources_nonempty hl
    have := (usums_pos hp 1).2 s ((mem_allSources l).1 hs)
    rw [h2 1 ⟨s, hs⟩, hz 1 le_rfl] at this
    exact lt_irrefl _ this
  · -- limit of the trust divided by powers of mu
    let T : S → ℝ := fun s => if h : s ∈ allSources l then B ⟨s, h⟩ else 0
    have hT : ∀ s ∈ allSources l, Tendsto (fun k : Nat => (usums l prior (k + 1)).1 s / mu ^ k) atTop
        (𝓝 (T s)) := by
      intro s hs
      simp only [T, hs, dite_true]
      have := hB ⟨s, hs⟩
      simpa only [h2 _ ⟨s, hs⟩] using this
    have hT0 : ∀ s ∈ allSources l, 0 ≤ T s := by
      intro s hs
      refine ge_of_tendsto' (hT s hs) fun k => ?_
      exact div_nonneg ((usums_pos hp k).2 s ((mem_allSources l).1 hs)).le (pow_pos hmu k).le
    have hTs0 : 0 < T s0.1 := by
      have : T s0.1 = B s0 := by simp [T]
      rcases (hT0 s0.1 s0.2).lt_or_eq with h | h
      · exact h
      · exact absurd (this ▸ h.symm) hs0
    have htop : 0 < top (allSources l) T := top_pos s0.2 hTs0
    have hBel : ∀ c ∈ allClaims l, Tendsto (fun k : Nat => (usums l prior (k + 1)).2 c / mu ^ k) atTop
        (𝓝 (sumBelief l T c)) := by
      intro c _
      have e : ∀ k : Nat, (usums l prior (k + 1)).2 c / mu ^ k =
          ∑ s ∈ sourcesOf l c, (usums l prior (k + 1)).1 s / mu ^ k := by
        intro k
        rw [← Finset.sum_div, usums_succ]; rfl
      simp only [e]
      unfold sumBelief
      exact tendsto_finsetSum _ fun s hs => hT s ((mem_allSources l).2 (mem_sources_of_sourcesOf l hs))
    have hscale : ∀ {A : Type} (F : Finset A) (u : A → ℝ) (k : Nat) (a : A),
        scaled F u a = scaled F (fun a => u a / mu ^ k) a := by
      intro A F u k a
      have := scaled_smul F u (r := (mu ^ k)⁻¹) (inv_pos.2 (pow_pos hmu k))
      rw [← this]
      simp only [div_eq_inv_mul]
    have hlimS : ∀ s ∈ allSources l, Tendsto (fun k => ((sumsStep l)^[k] ((fun _ => 0), prior)).1 s)
        atTop (𝓝 (scaled (allSources l) T s)) := by
      intro s hs
      rw [← tendsto_add_atTop_iff_nat 1]
      have e : ∀ k : Nat, ((sumsStep l)^[k + 1] ((fun _ => (0 : ℝ)), prior)).1 s =
          (usums l prior (k + 1)).1 s / mu ^ k /
            top (allSources l) (fun s => (usums l prior (k + 1)).1 s / mu ^ k) := by
        intro k
        rw [(sums_eq_usums hl hp k).1]
        exact hscale _ _ k s
      simp only [e]
      exact (hT s hs).div (tendsto_top hT) htop.ne'
    have htopC : 0 < top (allClaims l) (sumBelief l T) := by
      obtain ⟨c, hc⟩ := claimsOf_nonempty l ((mem_allSources l).1 s0.2)
      have hs0c : s0.1 ∈ sourcesOf l c := (mem_sourcesOf l).2 ((mem_claimsOf l).1 hc)
      refine top_pos ((mem_allClaims l).2 (mem_claims_of_claimsOf l hc)) ?_
      exact Finset.sum_pos' (fun s hs => hT0 s ((mem_allSources l).2 (mem_sources_of_sourcesOf l hs)))
        ⟨s0.1, hs0c, hTs0⟩
    have hlimC : ∀ c ∈ allClaims l, Tendsto (fun k => ((sumsStep l)^[k] ((fun _ => 0), prior)).2 c)
        atTop (𝓝 (scaled (allClaims l) (sumBelief l T) c)) := by
      intro c hc
      rw [← tendsto_add_atTop_iff_nat 1]
      have e : ∀ k : Nat, ((sumsStep l)^[k + 1] ((fun _ => (0 : ℝ)), prior)).2 c =
          (usums l prior (k + 1)).2 c / mu ^ k /
            top (allClaims l) (fun c => (usums l prior (k + 1)).2 c / mu ^ k) := by
        intro k
        rw [(sums_eq_usums hl hp k).1]
        exact hscale _ _ k c
      simp only [e]
      exact (hBel c hc).div (tendsto_top hBel) htopC.ne'
    exact ⟨mu, T, hmu, hT0, htop, htopC, hT, hBel, hlimS, hlimC⟩

/-- Trust and belief of Sums converge, to scores that are not all zero. -/
theorem sums_limit (hl : l ≠ []) {prior : V × X → ℝ} (hp : ∀ c ∈ claims l, 0 < prior c) :
    ∃ q : Scores S V X, (∃ s ∈ allSources l, q.1 s = 1) ∧ (∃ c ∈ allClaims l, q.2 c = 1) ∧
      (∀ s ∈ allSources l, 0 ≤ q.1 s) ∧
      (∀ s ∈ allSources l, Tendsto (fun k => ((sumsStep l)^[k] ((fun _ => 0), prior)).1 s) atTop
        (𝓝 (q.1 s))) ∧
      (∀ c ∈ allClaims l, Tendsto (fun k => ((sumsStep l)^[k] ((fun _ => 0), prior)).2 c) atTop
        (𝓝 (q.2 c))) := by
  obtain ⟨mu, T, -, hT0, htop, htopC, -, -, hlimS, hlimC⟩ := sums_growth hl hp
  refine ⟨(scaled (allSources l) T, scaled (allClaims l) (sumBelief l T)), ?_, ?_, ?_, hlimS, hlimC⟩
  · obtain ⟨s, hs, e⟩ := top_mem (f := T) (allSources_nonempty hl)
    exact ⟨s, hs, by simp only [scaled]; rw [e, div_self htop.ne']⟩
  · obtain ⟨c, hc, e⟩ := top_mem (f := sumBelief l T) (allClaims_nonempty hl)
    exact ⟨c, hc, by simp only [scaled]; rw [e, div_self htopC.ne']⟩
  · intro s hs
    exact div_nonneg (hT0 s hs) htop.le

/-! ### Distances of converging sequences -/

theorem tendsto_len2 {A : Type} {F : Finset A} {v : Nat → A → ℝ} {g : A → ℝ}
    (h : ∀ a ∈ F, Tendsto (fun k => v k a) atTop (𝓝 (g a))) :
    Tendsto (fun k => len2 F (v k)) atTop (𝓝 (len2 F g)) := by
  unfold len2
  exact (Real.continuous_sqrt.tendsto _).comp
    (tendsto_finsetSum _ fun a ha => (h a ha).pow 2)

theorem tendsto_distance {A : Type} {F : Finset A} (hF : F.Nonempty) {v w : Nat → A → ℝ} {g : A → ℝ}
    (hv : ∀ a ∈ F, Tendsto (fun k => v k a) atTop (𝓝 (g a)))
    (hw : ∀ a ∈ F, Tendsto (fun k => w k a) atTop (𝓝 (g a)))
    (hg : ∃ a ∈ F, g a ≠ 0) (m : Measure) :
    Tendsto (fun k => distance m F (v k) (w k)) atTop (𝓝 0) := by
  have hd : ∀ a ∈ F, Tendsto (fun k => v k a - w k a) atTop (𝓝 0) := by
    intro a ha
    have := (hv a ha).sub (hw a ha)
    rwa [sub_self] at this
  have habs : ∀ a ∈ F, Tendsto (fun k => |v k a - w k a|) atTop (𝓝 0) := by
    intro a ha
    have := (hd a ha).abs
    rwa [abs_zero] at this
  cases m with
  | l1 =>
    simp only [distance]
    have := tendsto_finsetSum F habs
    rwa [Finset.sum_const_zero] at this
  | l2 =>
    simp only [distance]
    have := tendsto_len2 (g := fun _ => (0 : ℝ)) (v := fun k a => v k a - w k a) hd
    have h0 : len2 F (fun _ => (0 : ℝ)) = 0 := by simp [len2]
    rwa [h0] at this
  | lInf =>
    simp only [distance]
    have := tendsto_top (g := fun _ => (0 : ℝ)) (f := fun k a => |v k a - w k a|) habs
    have h0 : top F (fun _ => (0 : ℝ)) = 0 := by
      simp [top, hF]
    rwa [h0] at this
  | cosine =>
    have hsq : 0 < ∑ a ∈ F, g a ^ 2 := by
      obtain ⟨a, ha, hne⟩ := hg
      exact Finset.sum_pos' (fun b _ => sq_nonneg _) ⟨a, ha, by positivity⟩
    have hlen : 0 < len2 F g := Real.sqrt_pos.2 hsq
    have h1 := tendsto_len2 hv
    have h2 := tendsto_len2 hw
    have hdot : Tendsto (fun k => ∑ a ∈ F, v k a * w k a) atTop (𝓝 (∑ a ∈ F, g a * g a)) :=
      tendsto_finsetSum _ fun a ha => (hv a ha).mul (hw a ha)
    have hq := (hdot.div (h1.mul h2) (mul_pos hlen hlen).ne')
    have hone : (∑ a ∈ F, g a * g a) / (len2 F g * len2 F g) = 1 := by
      have : ∑ a ∈ F, g a * g a = len2 F g * len2 F g := by
        unfold len2
        rw [Real.mul_self_sqrt hsq.le]
        exact Finset.sum_congr rfl fun a _ => by ring
      rw [this, div_self (mul_pos hlen hlen).ne']
    rw [hone] at hq
    have hcl : Tendsto (fun k => clamp (1 - (∑ a ∈ F, v k a * w k a) / (len2 F (v k) * len2 F (w k))))
        atTop (𝓝 (clamp (1 - 1))) := by
      unfold clamp
      exact tendsto_const_nhds.max (tendsto_const_nhds.min (tendsto_const_nhds.sub hq))
    have h0 : clamp (1 - 1) = 0 := by simp [clamp]
    rw [h0] at hcl
    refine hcl.congr' ?_
    filter_upwards [h1.eventually_const_lt hlen, h2.eventually_const_lt hlen] with k ha hb
    simp only [distance]
    rw [if_neg (by rw [not_or]; exact ⟨ha.ne', hb.ne'⟩)]

end TD
