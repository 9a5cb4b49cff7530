import Verif.Lemmas.Spectral
import Verif.Props.ConvergenceAvlog
import Verif.Spec.Close
/-! How fast the iterations of Sums and AverageLog converge, without rounding. -/

namespace TD.Spectral

theorem pow_gap {lam mu : ℝ} (h0 : 0 ≤ lam) (h : lam ≤ mu) (k : Nat) : lam ^ k * (mu - lam) ≤ mu ^ (k + 1) / (k + 1) := by
  have hmu := h0.trans h
  rw [le_div_iff₀ (by positivity)]
  have hgeom : (mu - lam) * ∑ i ∈ Finset.range (k + 1), mu ^ i * lam ^ (k - i) = mu ^ (k + 1) - lam ^ (k + 1) := by
    have := (Commute.all mu lam).mul_geom_sum₂ (k + 1)
    simpa using this
  have hle : ∑ _i ∈ Finset.range (k + 1), lam ^ k ≤ ∑ i ∈ Finset.range (k + 1), mu ^ i * lam ^ (k - i) := by
    refine Finset.sum_le_sum fun i hi => ?_
    have hik : i ≤ k := by have := Finset.mem_range.1 hi; omega
    calc lam ^ k = lam ^ i * lam ^ (k - i) := by rw [← pow_add]; congr 1; omega
      _ ≤ mu ^ i * lam ^ (k - i) := mul_le_mul_of_nonneg_right (pow_le_pow_left₀ h0 h i) (pow_nonneg h0 _)
  rw [Finset.sum_const, Finset.card_range, nsmul_eq_mul] at hle
  have := mul_le_mul_of_nonneg_left hle (sub_nonneg.2 h)
  rw [hgeom] at this
  have hl : 0 ≤ lam ^ (k + 1) := pow_nonneg h0 _
  push_cast at this
  nlinarith

/-- The iterates of a positive semidefinite matrix approach an eigenvector at least as fast as `1 / k`. -/
theorem rate {n : Type} [Fintype n] [DecidableEq n] [Nonempty n] {A : Matrix n n ℝ} (hA : A.PosSemidef)
    (v : n → ℝ) : ∃ (lam : ℝ) (u : n → ℝ), 0 ≤ lam ∧ (∃ s, u s ≠ 0) ∧ A.mulVec u = (fun s => lam * u s) ∧
      ∀ (k : Nat), ∑ s, (((fun w => A.mulVec w)^[k + 1] v) s - lam * ((fun w => A.mulVec w)^[k] v) s) ^ 2 ≤
        (lam ^ (k + 1) / (k + 1)) ^ 2 * ∑ s, v s ^ 2 := by
  have hH := hA.1
  obtain ⟨j0, hj0⟩ := Finite.exists_max hH.eigenvalues
  set e := hH.eigenvectorBasis with he
  set c : n → ℝ := fun j => (e.repr (WithLp.toLp 2 v)) j with hc
  have hk : ∀ k : Nat, (WithLp.toLp 2 ((fun w => A.mulVec w)^[k] v) : EuclideanSpace ℝ n) =
      ∑ j, (c j * hH.eigenvalues j ^ k) • e j := by
    intro k
    induction k with
    | zero =>
      simp only [Function.iterate_zero, id_eq, pow_zero, mul_one]
      exact (e.sum_repr (WithLp.toLp 2 v)).symm
    | succ k ih =>
      have h1 : ((fun w => A.mulVec w)^[k] v) = ∑ j, (c j * hH.eigenvalues j ^ k) • (⇑(e j) : n → ℝ) := by
        have := congrArg (fun u : EuclideanSpace ℝ n => (u.ofLp : n → ℝ)) ih
        simpa using this
      rw [Function.iterate_succ_apply', h1, Matrix.mulVec_sum]
      simp only [Matrix.mulVec_smul, he, hH.mulVec_eigenvectorBasis]
      ext s
      simp only [WithLp.ofLp_sum, Finset.sum_apply, WithLp.ofLp_smul, Pi.smul_apply, smul_eq_mul]
      refine Finset.sum_congr rfl fun j _ => ?_
      rw [pow_succ]
      ring
  have hnorm : ∀ d : n → ℝ, ‖∑ j, d j • e j‖ ^ 2 = ∑ j, d j ^ 2 := by
    intro d
    have := e.sum_repr_symm (WithLp.toLp 2 d)
    simp only at this
    rw [this, LinearIsometryEquiv.norm_map, EuclideanSpace.real_norm_sq_eq]
  refine ⟨hH.eigenvalues j0, e j0, hA.eigenvalues_nonneg j0, ?_, ?_, ?_⟩
  · by_contra hcon
    push Not at hcon
    have h1 : e j0 = 0 := by ext s; exact hcon s
    have := e.orthonormal.1 j0
    rw [h1, norm_zero] at this
    exact zero_ne_one this
  · exact hH.mulVec_eigenvectorBasis j0
  · intro k
    have h1 : ∑ s, (((fun w => A.mulVec w)^[k + 1] v) s - hH.eigenvalues j0 * ((fun w => A.mulVec w)^[k] v) s) ^ 2 =
        ‖∑ j, (c j * hH.eigenvalues j ^ (k + 1) - hH.eigenvalues j0 * (c j * hH.eigenvalues j ^ k)) • e j‖ ^ 2 := by
      have : ∑ j, (c j * hH.eigenvalues j ^ (k + 1) - hH.eigenvalues j0 * (c j * hH.eigenvalues j ^ k)) • e j =
          WithLp.toLp 2 ((fun w => A.mulVec w)^[k + 1] v) - hH.eigenvalues j0 • WithLp.toLp 2 ((fun w => A.mulVec w)^[k] v) := by
        rw [hk, hk, Finset.smul_sum, ← Finset.sum_sub_distrib]
        exact Finset.sum_congr rfl fun j _ => by rw [sub_smul, smul_smul]
      rw [this, EuclideanSpace.real_norm_sq_eq]
      rfl
    have h2 : ∑ s, v s ^ 2 = ∑ j, c j ^ 2 := by
      have : ∑ s, v s ^ 2 = ‖(WithLp.toLp 2 v : EuclideanSpace ℝ n)‖ ^ 2 := by rw [EuclideanSpace.real_norm_sq_eq]
      rw [this, ← e.sum_repr (WithLp.toLp 2 v), hnorm]
    rw [h1, hnorm, h2, Finset.mul_sum]
    refine Finset.sum_le_sum fun j _ => ?_
    have h3 := pow_gap (hA.eigenvalues_nonneg j) (hj0 j) k
    have h4 : 0 ≤ hH.eigenvalues j ^ k * (hH.eigenvalues j0 - hH.eigenvalues j) :=
      mul_nonneg (pow_nonneg (hA.eigenvalues_nonneg j) _) (sub_nonneg.2 (hj0 j))
    have h5 : (c j * hH.eigenvalues j ^ (k + 1) - hH.eigenvalues j0 * (c j * hH.eigenvalues j ^ k)) ^ 2 =
        (hH.eigenvalues j ^ k * (hH.eigenvalues j0 - hH.eigenvalues j)) ^ 2 * c j ^ 2 := by rw [pow_succ]; ring
    rw [h5]
    exact mul_le_mul_of_nonneg_right (pow_le_pow_left₀ h4 h3 2) (sq_nonneg _)

end TD.Spectral

namespace TD
open Spec Ex
attribute [-instance] instBEqProd

variable {S V X : Type} [DecidableEq S] [DecidableEq V] [DecidableEq X] {l : List (S × V × X)}

/-- Trust as a weighted sum of beliefs. -/
noncomputable def gT (l : List (S × V × X)) (w : S → ℝ) (b : V × X → ℝ) (s : S) : ℝ := w s * sumTrust l b s

/-- Beliefs after `k` iterations without normalisation. -/
noncomputable def gIter (l : List (S × V × X)) (w : S → ℝ) (b : V × X → ℝ) (k : Nat) : V × X → ℝ :=
  (fun b => sumBelief l (gT l w b))^[k] b

theorem gIter_succ (w : S → ℝ) (b : V × X → ℝ) (k : Nat) : gIter l w b (k + 1) = sumBelief l (gT l w (gIter l w b k)) := by
  unfold gIter; rw [Function.iterate_succ_apply']

/-- `√D A`. -/
noncomputable def gMat (l : List (S × V × X)) (w : S → ℝ) : Matrix {s // s ∈ allSources l} {c // c ∈ allClaims l} ℝ :=
  fun s c => Real.sqrt (w s.1) * scMat l s c

theorem gMat_step {w : S → ℝ} (hw : ∀ s ∈ sources l, 0 ≤ w s) (b : V × X → ℝ) (c : {c // c ∈ allClaims l}) :
    ((gMat l w).conjTranspose * gMat l w).mulVec (fun c => b c.1) c = sumBelief l (gT l w b) c.1 := by
  rw [← Matrix.mulVec_mulVec]
  have h1 : (gMat l w).mulVec (fun c => b c.1) = fun s => Real.sqrt (w s.1) * sumTrust l b s.1 := by
    funext s
    rw [← scMat_mulVec]
    simp only [Matrix.mulVec, dotProduct, gMat, Finset.mul_sum]
    exact Finset.sum_congr rfl fun c _ => by ring
  rw [h1]
  have h2 : (gMat l w).conjTranspose.mulVec (fun s => Real.sqrt (w s.1) * sumTrust l b s.1) c =
      (scMat l).conjTranspose.mulVec (fun s => gT l w b s.1) c := by
    simp only [Matrix.mulVec, dotProduct, gMat, Matrix.conjTranspose_apply]
    refine Finset.sum_congr rfl fun s _ => ?_
    have hw := Real.mul_self_sqrt (hw s.1 ((mem_allSources l).1 s.2))
    simp only [star_trivial]
    have : gT l w b s.1 = w s.1 * sumTrust l b s.1 := rfl
    rw [this]
    linear_combination (scMat l s c * sumTrust l b s.1) * hw
  rw [h2, scMatT_mulVec]

theorem gIter_mat {w : S → ℝ} (hw : ∀ s ∈ sources l, 0 ≤ w s) (b : V × X → ℝ) (k : Nat) :
    (fun c : {c // c ∈ allClaims l} => gIter l w b k c.1) =
      (fun u => ((gMat l w).conjTranspose * gMat l w).mulVec u)^[k] (fun c => b c.1) := by
  induction k with
  | zero => rfl
  | succ k ih =>
    rw [Function.iterate_succ_apply', ← ih]
    funext c
    rw [gMat_step hw, gIter_succ]

theorem gIter_rate (hl : l ≠ []) {w : S → ℝ} (hw : ∀ s ∈ sources l, 0 ≤ w s) (b : V × X → ℝ) :
    ∃ (lam : ℝ) (u : V × X → ℝ), 0 ≤ lam ∧ (∃ c ∈ allClaims l, u c ≠ 0) ∧
      (∀ c ∈ allClaims l, sumBelief l (gT l w u) c = lam * u c) ∧
      ∀ k : Nat, ∑ c ∈ allClaims l, (gIter l w b (k + 1) c - lam * gIter l w b k c) ^ 2 ≤
        (lam ^ (k + 1) / (k + 1)) ^ 2 * ∑ c ∈ allClaims l, b c ^ 2 := by
  classical
  obtain ⟨c0, hc0⟩ := allClaims_nonempty hl
  have : Nonempty {c // c ∈ allClaims l} := ⟨⟨c0, hc0⟩⟩
  obtain ⟨lam, u, h0, ⟨c1, hc1⟩, h1, h2⟩ := Spectral.rate (Matrix.posSemidef_conjTranspose_mul_self (gMat l w)) (fun c => b c.1)
  refine ⟨lam, fun c => if h : c ∈ allClaims l then u ⟨c, h⟩ else 0, h0, ⟨c1.1, c1.2, by simpa using hc1⟩, ?_, ?_⟩
  · intro c hc
    have := gMat_step hw (fun c => if h : c ∈ allClaims l then u ⟨c, h⟩ else 0) ⟨c, hc⟩
    rw [← this]
    have e : (fun c : {c // c ∈ allClaims l} => if h : c.1 ∈ allClaims l then u ⟨c.1, h⟩ else 0) = u := by
      funext c; simp
    rw [e, h1]
    simp [hc]
  · intro k
    have := h2 k
    rw [← gIter_mat hw, ← gIter_mat hw] at this
    rw [← Finset.sum_coe_sort (allClaims l), ← Finset.sum_coe_sort (allClaims l) (fun c => b c ^ 2)]
    exact this

/-- The largest score grows at least as fast as the powers of the eigenvalue. -/
theorem gIter_lower {w : S → ℝ} (hw : ∀ s ∈ sources l, 0 ≤ w s) {b : V × X → ℝ} {lam : ℝ} {u : V × X → ℝ} (hlam : 0 < lam)
    (hu : ∃ c ∈ allClaims l, u c ≠ 0) (heig : ∀ c ∈ allClaims l, sumBelief l (gT l w u) c = lam * u c) {β : ℝ}
    (hβ : 0 ≤ β) (hlow : ∀ s ∈ sources l, w s ≠ 0 → β ≤ gT l w b s) (k : Nat) :
    lam ^ k * β ≤ top (allSources l) (gT l w (gIter l w b k)) := by
  set U : S → ℝ := gT l w u with hU
  have hN : ∀ s, gT l w (sumBelief l U) s = lam * U s := by
    intro s
    show w s * ∑ c ∈ claimsOf l s, sumBelief l U c = lam * (w s * ∑ c ∈ claimsOf l s, u c)
    rw [Finset.sum_congr rfl fun c hc => heig c ((mem_allClaims l).2 (mem_claims_of_claimsOf l hc)), ← Finset.mul_sum]
    ring
  obtain ⟨c, hc, huc⟩ := hu
  have hne : ∃ s ∈ allSources l, U s ≠ 0 := by
    by_contra hcon
    push Not at hcon
    have : sumBelief l U c = 0 := Finset.sum_eq_zero fun s hs => hcon s ((mem_allSources l).2 (mem_sources_of_sourcesOf l hs))
    rw [heig c hc] at this
    rcases mul_eq_zero.1 this with h | h
    · exact hlam.ne' h
    · exact huc h
  obtain ⟨s1, hs1, hUs1⟩ := hne
  obtain ⟨s2, hs2, e2⟩ := top_mem (F := allSources l) (f := fun s => |U s|) ⟨s1, hs1⟩
  set P : ℝ := top (allSources l) (fun s => |U s|) with hP
  have hP0 : 0 < P := (abs_pos.2 hUs1).trans_le (le_top (f := fun s => |U s|) hs1)
  have key : ∀ (k : Nat), ∀ s ∈ sources l, lam ^ k * β * |U s| ≤ P * gT l w (gIter l w b k) s := by
    intro k
    induction k with
    | zero =>
      intro s hs
      rw [pow_zero, one_mul]
      by_cases h0 : w s = 0
      · have e1 : U s = 0 := by simp [hU, gT, h0]
        have e3 : gT l w (gIter l w b 0) s = 0 := by simp [gT, h0]
        rw [e1, e3]; simp
      · have := hlow s hs h0
        have h2 : |U s| ≤ P := le_top (f := fun s => |U s|) ((mem_allSources l).2 hs)
        calc β * |U s| ≤ β * P := mul_le_mul_of_nonneg_left h2 hβ
          _ = P * β := mul_comm _ _
          _ ≤ P * gT l w b s := mul_le_mul_of_nonneg_left this hP0.le
    | succ k ih =>
      intro s hs
      rw [gIter_succ]
      have e : lam ^ (k + 1) * β * |U s| = lam ^ k * β * |gT l w (sumBelief l U) s| := by
        rw [hN, abs_mul, abs_of_pos hlam, pow_succ]; ring
      rw [e]
      have hb0 : 0 ≤ lam ^ k * β := mul_nonneg (pow_nonneg hlam.le _) hβ
      have h1 : |gT l w (sumBelief l U) s| ≤ w s * ∑ c ∈ claimsOf l s, ∑ r ∈ sourcesOf l c, |U r| := by
        show |w s * ∑ c ∈ claimsOf l s, ∑ r ∈ sourcesOf l c, U r| ≤ _
        rw [abs_mul, abs_of_nonneg (hw s hs)]
        refine mul_le_mul_of_nonneg_left ?_ (hw s hs)
        refine (Finset.abs_sum_le_sum_abs _ _).trans (Finset.sum_le_sum fun c _ => ?_)
        exact Finset.abs_sum_le_sum_abs _ _
      refine (mul_le_mul_of_nonneg_left h1 hb0).trans ?_
      show _ ≤ P * (w s * ∑ c ∈ claimsOf l s, ∑ r ∈ sourcesOf l c, gT l w (gIter l w b k) r)
      have h2 : lam ^ k * β * ∑ c ∈ claimsOf l s, ∑ r ∈ sourcesOf l c, |U r| ≤
          P * ∑ c ∈ claimsOf l s, ∑ r ∈ sourcesOf l c, gT l w (gIter l w b k) r := by
        simp only [Finset.mul_sum]
        exact Finset.sum_le_sum fun c _ => Finset.sum_le_sum fun r hr => ih r (mem_sources_of_sourcesOf l hr)
      have := mul_le_mul_of_nonneg_left h2 (hw s hs)
      linarith
  have h1 := key k s2 ((mem_allSources l).1 hs2)
  have h2 : gT l w (gIter l w b k) s2 ≤ top (allSources l) (gT l w (gIter l w b k)) := le_top (f := gT l w (gIter l w b k)) hs2
  rw [e2, mul_comm P] at h1
  exact (le_of_mul_le_mul_right h1 hP0).trans h2

theorem scaled_close {A : Type} {F : Finset A} (hF : F.Nonempty) {p q : A → ℝ} (hp : ∀ a ∈ F, 0 ≤ p a)
    (hP : 0 < top F p) (hQ : 0 < top F q) {lam δ : ℝ} (hlam : 0 < lam) (h : ∀ a ∈ F, |q a - lam * p a| ≤ δ) :
    ∀ a ∈ F, |scaled F p a - scaled F q a| ≤ 2 * δ / top F q := by
  have htop : |lam * top F p - top F q| ≤ δ := by
    obtain ⟨i, hi, ei⟩ := top_mem (f := p) hF
    obtain ⟨j, hj, ej⟩ := top_mem (f := q) hF
    have h1 := abs_le.1 (h i hi)
    have h2 := abs_le.1 (h j hj)
    have h3 : p j ≤ top F p := le_top (f := p) hj
    have h4 : q i ≤ top F q := le_top (f := q) hi
    rw [ei] at h1
    rw [ej] at h2
    have h5 : lam * p j ≤ lam * top F p := mul_le_mul_of_nonneg_left h3 hlam.le
    rw [abs_le]
    constructor <;> linarith
  intro a ha
  have e : scaled F p a - scaled F q a =
      ((p a / top F p) * -(lam * top F p - top F q) - (q a - lam * p a)) / top F q := by
    unfold scaled
    field_simp
    ring
  rw [e, abs_div, abs_of_pos hQ]
  refine div_le_div_of_nonneg_right ?_ hQ.le
  have h1 : |p a / top F p| ≤ 1 := by
    rw [abs_of_nonneg (div_nonneg (hp a ha) hP.le), div_le_one hP]
    exact le_top (f := p) ha
  have h0 : 0 ≤ δ := (abs_nonneg _).trans htop
  calc _ ≤ |p a / top F p * -(lam * top F p - top F q)| + |q a - lam * p a| := abs_sub _ _
    _ ≤ 1 * δ + δ := by
      refine add_le_add ?_ (h a ha)
      rw [abs_mul, abs_neg]
      exact mul_le_mul h1 htop (abs_nonneg _) zero_le_one
    _ = 2 * δ := by ring

/-- Distance of two vectors with largest entry 1. -/
theorem distance_near {A : Type} {F : Finset A} {v w : A → ℝ} {δ : ℝ} (hv : ∃ a ∈ F, v a = 1) (hw : ∃ a ∈ F, w a = 1)
    (hv0 : ∀ a ∈ F, 0 ≤ v a) (hw0 : ∀ a ∈ F, 0 ≤ w a)
    (hd : ∀ a ∈ F, |v a - w a| ≤ δ) (m : Measure) : distance m F v w ≤ spread m F.card * δ := by
  obtain ⟨a0, ha0, e0⟩ := hv
  obtain ⟨a1, ha1, e1⟩ := hw
  have hF : F.Nonempty := ⟨a0, ha0⟩
  have hδ : 0 ≤ δ := (abs_nonneg _).trans (hd a0 ha0)
  have hc : (1 : ℝ) ≤ F.card := by exact_mod_cast hF.card_pos
  have hle : δ ≤ F.card * δ := le_mul_of_one_le_left hδ hc
  have hsq : ∑ a ∈ F, (v a - w a) ^ 2 ≤ F.card * δ ^ 2 := by
    have : ∑ a ∈ F, (v a - w a) ^ 2 ≤ ∑ _a ∈ F, δ ^ 2 := Finset.sum_le_sum fun a ha => by
      rw [← sq_abs]; exact pow_le_pow_left₀ (abs_nonneg _) (hd a ha) 2
    rwa [Finset.sum_const, nsmul_eq_mul] at this
  cases m with
  | l1 =>
    have : ∑ a ∈ F, |v a - w a| ≤ ∑ _a ∈ F, δ := Finset.sum_le_sum hd
    rwa [Finset.sum_const, nsmul_eq_mul] at this
  | l2 =>
    show Real.sqrt _ ≤ Real.sqrt F.card * δ
    rw [Real.sqrt_le_left (mul_nonneg (Real.sqrt_nonneg _) hδ)]
    refine hsq.trans (le_of_eq ?_)
    rw [mul_pow, Real.sq_sqrt (by linarith)]
  | lInf =>
    show top F _ ≤ 1 * δ
    rw [one_mul]
    obtain ⟨a, ha, e⟩ := top_mem (f := fun a => |v a - w a|) hF
    rw [← e]
    exact hd a ha
  | cosine =>
    have h1 : ∀ u : A → ℝ, ∀ a ∈ F, u a = 1 → 1 ≤ ∑ a ∈ F, u a ^ 2 := by
      intro u a ha e
      have := Finset.single_le_sum (f := fun a => u a ^ 2) (fun a _ => sq_nonneg (u a)) ha
      simpa [e] using this
    have hA := h1 v a0 ha0 e0
    have hB := h1 w a1 ha1 e1
    have sA : 1 ≤ len2 F v := Real.one_le_sqrt.2 hA
    have sB : 1 ≤ len2 F w := Real.one_le_sqrt.2 hB
    have eA : len2 F v ^ 2 = ∑ a ∈ F, v a ^ 2 := Real.sq_sqrt (by linarith)
    have eB : len2 F w ^ 2 = ∑ a ∈ F, w a ^ 2 := Real.sq_sqrt (by linarith)
    have nA : len2 F v ≠ 0 := by linarith
    have nB : len2 F w ≠ 0 := by linarith
    simp only [distance, nA, nB, or_self, if_false, clamp, spread]
    have hdot : 0 ≤ ∑ a ∈ F, v a * w a := Finset.sum_nonneg fun a ha => mul_nonneg (hv0 a ha) (hw0 a ha)
    have hprod : 1 ≤ len2 F v * len2 F w := by nlinarith
    rcases le_or_gt 1 δ with h | h
    · refine max_le (by positivity) ((min_le_left _ _).trans (h.trans hle))
    · refine max_le (by positivity) ((min_le_right _ _).trans ?_)
      have hsum : ∑ a ∈ F, (v a - w a) ^ 2 = len2 F v ^ 2 + len2 F w ^ 2 - 2 * ∑ a ∈ F, v a * w a := by
        rw [eA, eB, Finset.mul_sum, ← Finset.sum_add_distrib, ← Finset.sum_sub_distrib]
        exact Finset.sum_congr rfl fun a _ => by ring
      rw [sub_le_iff_le_add, ← sub_le_iff_le_add', le_div_iff₀ (by linarith)]
      have h2 : F.card * δ ^ 2 ≤ F.card * δ := mul_le_mul_of_nonneg_left (by nlinarith) (by linarith)
      have h3 : F.card * δ ≤ F.card * δ * (len2 F v * len2 F w) := le_mul_of_one_le_right (by positivity) hprod
      nlinarith [sq_nonneg (len2 F v - len2 F w)]

/-- The change of the normalised trust scores, without rounding. -/
theorem gIter_change (hl : l ≠ []) {w : S → ℝ} (hw : ∀ s ∈ sources l, 0 ≤ w s) {b : V × X → ℝ}
    (hpos : ∀ k, 0 < top (allSources l) (gT l w (gIter l w b k))) (hnn : ∀ k, ∀ s ∈ sources l, 0 ≤ gT l w (gIter l w b k) s)
    {β Ω : ℝ} (hβ : 0 < β) (hlow : ∀ s ∈ sources l, w s ≠ 0 → β ≤ gT l w b s)
    (hΩ : ∀ s ∈ sources l, w s * Real.sqrt (nClaims l s) ≤ Ω) (m : Measure) (k : Nat) :
    distance m (allSources l) (scaled (allSources l) (gT l w (gIter l w b k)))
      (scaled (allSources l) (gT l w (gIter l w b (k + 1)))) ≤
      spread m (allSources l).card * (2 * (Ω * len2 (allClaims l) b) / (β * (k + 1))) := by
  obtain ⟨lam, u, h0, hu, heig, hrate⟩ := gIter_rate hl hw b
  have hS := allSources_nonempty hl
  have hlam : 0 < lam := by
    rcases h0.lt_or_eq with h | h
    · exact h
    · exfalso
      have h1 := hrate 0
      rw [← h] at h1
      simp only [zero_add, zero_mul, sub_zero, pow_one, zero_div, ne_eq, OfNat.ofNat_ne_zero, not_false_eq_true, zero_pow] at h1
      have h2 : ∀ c ∈ allClaims l, gIter l w b 1 c = 0 := by
        intro c hc
        have := (Finset.sum_eq_zero_iff_of_nonneg (fun c _ => sq_nonneg (gIter l w b 1 c))).1
          (le_antisymm h1 (Finset.sum_nonneg fun c _ => sq_nonneg _)) c hc
        exact pow_eq_zero_iff (two_ne_zero) |>.1 this
      obtain ⟨s, hs, e⟩ := top_mem (f := gT l w (gIter l w b 1)) hS
      have h3 := hpos 1
      rw [← e] at h3
      have : gT l w (gIter l w b 1) s = 0 := by
        show w s * ∑ c ∈ claimsOf l s, _ = 0
        rw [Finset.sum_eq_zero fun c hc => h2 c ((mem_allClaims l).2 (mem_claims_of_claimsOf l hc)), mul_zero]
      linarith
  have hΩ0 : 0 ≤ Ω := by
    obtain ⟨s, hs⟩ := hS
    exact (mul_nonneg (hw s ((mem_allSources l).1 hs)) (Real.sqrt_nonneg _)).trans (hΩ s ((mem_allSources l).1 hs))
  have hlen : 0 ≤ len2 (allClaims l) b := Real.sqrt_nonneg _
  have hlam' : 0 ≤ lam ^ (k + 1) / ((k : ℝ) + 1) := div_nonneg (pow_nonneg h0 _) (by positivity)
  have hdiff : ∀ s ∈ allSources l, |gT l w (gIter l w b (k + 1)) s - lam * gT l w (gIter l w b k) s| ≤
      Ω * (lam ^ (k + 1) / (k + 1) * len2 (allClaims l) b) := by
    intro s hs
    have hs' := (mem_allSources l).1 hs
    set D : V × X → ℝ := fun c => gIter l w b (k + 1) c - lam * gIter l w b k c with hD
    have e : gT l w (gIter l w b (k + 1)) s - lam * gT l w (gIter l w b k) s = w s * ∑ c ∈ claimsOf l s, D c := by
      show w s * ∑ c ∈ claimsOf l s, _ - lam * (w s * ∑ c ∈ claimsOf l s, _) = _
      rw [hD, Finset.sum_sub_distrib, ← Finset.mul_sum]
      ring
    rw [e, abs_mul, abs_of_nonneg (hw s hs')]
    have hcs : |∑ c ∈ claimsOf l s, D c| ≤ Real.sqrt (nClaims l s) * (lam ^ (k + 1) / (k + 1) * len2 (allClaims l) b) := by
      have h1 : (∑ c ∈ claimsOf l s, D c) ^ 2 ≤ nClaims l s * ∑ c ∈ claimsOf l s, D c ^ 2 := by
        have := Finset.sum_mul_sq_le_sq_mul_sq (claimsOf l s) (fun _ => (1 : ℝ)) D
        simpa [nClaims] using this
      have h2 : ∑ c ∈ claimsOf l s, D c ^ 2 ≤ ∑ c ∈ allClaims l, D c ^ 2 :=
        Finset.sum_le_sum_of_subset_of_nonneg (fun c hc => (mem_allClaims l).2 (mem_claims_of_claimsOf l hc))
          fun c _ _ => sq_nonneg _
      have h3 := hrate k
      have hn : 0 ≤ nClaims l s := Nat.cast_nonneg _
      refine abs_le_of_sq_le_sq ?_ (mul_nonneg (Real.sqrt_nonneg _) (mul_nonneg hlam' hlen))
      refine h1.trans ?_
      rw [mul_pow, Real.sq_sqrt hn, mul_pow, len2, Real.sq_sqrt (Finset.sum_nonneg fun c _ => sq_nonneg _)]
      exact mul_le_mul_of_nonneg_left (h2.trans h3) hn
    calc w s * |∑ c ∈ claimsOf l s, D c| ≤ w s * (Real.sqrt (nClaims l s) * (lam ^ (k + 1) / (k + 1) * len2 (allClaims l) b)) :=
          mul_le_mul_of_nonneg_left hcs (hw s hs')
      _ = w s * Real.sqrt (nClaims l s) * (lam ^ (k + 1) / (k + 1) * len2 (allClaims l) b) := by ring
      _ ≤ _ := mul_le_mul_of_nonneg_right (hΩ s hs') (mul_nonneg hlam' hlen)
  have hclose := scaled_close hS (fun s hs => hnn k s ((mem_allSources l).1 hs)) (hpos k) (hpos (k + 1)) hlam hdiff
  have hlow' := gIter_lower hw hlam hu heig hβ.le hlow (k + 1)
  have hnn' : ∀ k, ∀ a ∈ allSources l, 0 ≤ scaled (allSources l) (gT l w (gIter l w b k)) a := fun k a ha =>
    div_nonneg (hnn k a ((mem_allSources l).1 ha)) (hpos k).le
  refine distance_near (scaled_max hS (hpos k)) (scaled_max hS (hpos (k + 1))) (hnn' k) (hnn' (k + 1)) (fun a ha => ?_) m
  refine (hclose a ha).trans ?_
  have hp : 0 < lam ^ (k + 1) * β := mul_pos (pow_pos hlam _) hβ
  have hnum : 0 ≤ 2 * (Ω * (lam ^ (k + 1) / (k + 1) * len2 (allClaims l) b)) :=
    mul_nonneg zero_le_two (mul_nonneg hΩ0 (mul_nonneg hlam' hlen))
  refine (div_le_div_of_nonneg_left hnum hp hlow').trans (le_of_eq ?_)
  have : lam ^ (k + 1) ≠ 0 := (pow_pos hlam _).ne'
  field_simp

/-! ### The initial beliefs -/

/-- A source makes at most one claim about a variable. -/
theorem rivals_sum_le (c : V × X) : ∑ d ∈ rivals l c, nSources l d ≤ (allSources l).card := by
  classical
  have h : (∑ d ∈ rivals l c, (sourcesOf l d).card) = ((rivals l c).biUnion (sourcesOf l)).card := by
    rw [Finset.card_biUnion]
    intro d hd e he hne
    refine Finset.disjoint_left.2 fun s h1 h2 => hne ?_
    have h1' := (mem_sourcesOf l).1 h1
    have h2' := (mem_sourcesOf l).1 h2
    have := recorded_unique l h1' h2' rfl (by show d.1 = e.1; rw [← ((mem_rivals l).1 hd).2, ← ((mem_rivals l).1 he).2])
    exact congrArg Prod.snd this
  have h2 : (rivals l c).biUnion (sourcesOf l) ⊆ allSources l := by
    intro s hs
    obtain ⟨d, -, hd⟩ := Finset.mem_biUnion.1 hs
    exact (mem_allSources l).2 (mem_sources_of_sourcesOf l hd)
  have h3 := Finset.card_le_card h2
  rw [← h] at h3
  unfold nSources
  exact_mod_cast h3

theorem one_le_nSources {c : V × X} (hc : c ∈ claims l) : 1 ≤ nSources l c := by
  have := (sourcesOf_nonempty l hc).card_pos
  unfold nSources; exact_mod_cast this

theorem nSources_le (c : V × X) : nSources l c ≤ (allSources l).card := by
  have : (sourcesOf l c).card ≤ (allSources l).card :=
    Finset.card_le_card fun s hs => (mem_allSources l).2 (mem_sources_of_sourcesOf l hs)
  unfold nSources; exact_mod_cast this

/-- The initial beliefs differ by at most a factor of the number of sources. -/
theorem prior_bounds (hl : l ≠ []) (p : Prior) : ∃ lo : ℝ, 0 < lo ∧
    ∀ c ∈ claims l, lo ≤ priorOf l p c ∧ priorOf l p c ≤ (allSources l).card * lo := by
  have hn : (1 : ℝ) ≤ (allSources l).card := by exact_mod_cast (allSources_nonempty hl).card_pos
  have hn0 : (0 : ℝ) < (allSources l).card := by linarith
  cases p with
  | fixed =>
    refine ⟨1 / 2, by norm_num, fun c _ => ⟨le_rfl, ?_⟩⟩
    show (1 : ℝ) / 2 ≤ _
    linarith
  | count => exact ⟨1, one_pos, fun c hc => ⟨one_le_nSources hc, by rw [mul_one]; exact nSources_le c⟩⟩
  | voted =>
    refine ⟨1 / (allSources l).card, by positivity, fun c hc => ⟨?_, ?_⟩⟩
    · exact div_le_div₀ (Nat.cast_nonneg _) (one_le_nSources hc) (rivals_sum_pos hc) (rivals_sum_le c)
    · rw [mul_one_div_cancel hn0.ne']
      exact (div_le_one (rivals_sum_pos hc)).2
        (Finset.single_le_sum (f := nSources l) (fun d _ => Nat.cast_nonneg _) (self_mem_rivals l hc))
  | uniform =>
    refine ⟨1 / (allSources l).card, by positivity, fun c hc => ⟨?_, ?_⟩⟩
    · refine div_le_div_of_nonneg_left zero_le_one (rivals_card_pos hc) ?_
      refine le_trans ?_ (rivals_sum_le c)
      have : ∑ _d ∈ rivals l c, (1 : ℝ) ≤ ∑ d ∈ rivals l c, nSources l d :=
        Finset.sum_le_sum fun d hd => one_le_nSources ((mem_rivals l).1 hd).1
      simpa using this
    · rw [mul_one_div_cancel hn0.ne']
      show (1 : ℝ) / _ ≤ 1
      rw [div_le_one (rivals_card_pos hc)]
      have : 1 ≤ (rivals l c).card := Finset.card_pos.2 ⟨c, self_mem_rivals l hc⟩
      exact_mod_cast this

theorem len2_le_of {A : Type} {F : Finset A} {v : A → ℝ} {M : ℝ} (hM : 0 ≤ M) (h : ∀ a ∈ F, |v a| ≤ M) :
    len2 F v ≤ Real.sqrt F.card * M := by
  rw [len2, Real.sqrt_le_left (mul_nonneg (Real.sqrt_nonneg _) hM), mul_pow, Real.sq_sqrt (Nat.cast_nonneg _)]
  have : ∑ a ∈ F, v a ^ 2 ≤ ∑ _a ∈ F, M ^ 2 := Finset.sum_le_sum fun a ha => by
    rw [← sq_abs]; exact pow_le_pow_left₀ (abs_nonneg _) (h a ha) 2
  rwa [Finset.sum_const, nsmul_eq_mul] at this

/-! ### The two algorithms -/

theorem usums_gIter (prior : V × X → ℝ) (k : Nat) : (usums l prior k).2 = gIter l (fun _ => 1) prior k := by
  induction k with
  | zero => rfl
  | succ k ih =>
    rw [usums_succ, gIter_succ, ← ih]
    show sumBelief l (sumTrust l _) = _
    unfold gT
    simp only [one_mul]

theorem sums_gIter (hl : l ≠ []) {prior : V × X → ℝ} (hp : ∀ c ∈ claims l, 0 < prior c) (k : Nat) :
    ((sumsStep l)^[k + 1] ((fun _ => 0), prior)).1 = scaled (allSources l) (gT l (fun _ => 1) (gIter l (fun _ => 1) prior k)) := by
  rw [(sums_eq_usums hl hp k).1, ← usums_gIter, usums_succ]
  show scaled (allSources l) (sumTrust l _) = _
  unfold gT
  simp only [one_mul]

theorem wIter_gIter (prior : V × X → ℝ) (k : Nat) : (wIter l prior k).2 = gIter l (weight l) prior k := by
  induction k with
  | zero => rfl
  | succ k ih =>
    rw [wIter_succ, gIter_succ, ← ih]
    rfl

theorem avlog_gIter (hm : ∃ s, Multi l s) {prior : V × X → ℝ} (hp : ∀ c ∈ claims l, 0 < prior c) (k : Nat) :
    ((avlogStep l)^[k + 1] ((fun _ => 0), prior)).1 = scaled (allSources l) (gT l (weight l) (gIter l (weight l) prior k)) := by
  rw [(avlog_eq_wIter hm hp k).1, ← wIter_gIter, wIter_succ]
  rfl

/-- `log n ≤ √n`. -/
theorem log_le_sqrt {x : ℝ} (hx : 0 < x) : Real.log x ≤ Real.sqrt x := by
  have hy := Real.sqrt_pos.2 hx
  have h1 : Real.log x = 2 * Real.log (Real.sqrt x) := by
    rw [Real.log_sqrt hx.le]; ring
  have h2 := Real.log_le_sub_one_of_pos (half_pos hy)
  rw [Real.log_div hy.ne' two_ne_zero] at h2
  have h3 := Real.log_le_sub_one_of_pos (two_pos (α := ℝ))
  linarith

theorem sums_change (hl : l ≠ []) (p : Prior) {a : Nat} (ha : ∀ s, (claimsOf l s).card ≤ a) (m : Measure) (k : Nat) :
    stepChange m l (sumsStep l) ((fun _ => 0), priorOf l p) (k + 1) ≤
      spread m (allSources l).card * (2 * (allSources l).card * Real.sqrt (a * (allClaims l).card)) / (k + 1) := by
  have hp : ∀ c ∈ claims l, 0 < priorOf l p c := fun c hc => priorOf_pos p hc
  obtain ⟨lo, hlo, hb⟩ := prior_bounds hl p
  have hsp : 0 ≤ spread m (allSources l).card := by
    cases m <;> simp only [spread] <;> positivity
  unfold stepChange
  rw [sums_gIter hl hp, sums_gIter hl hp]
  have hpos : ∀ k, ∀ s ∈ sources l, 0 < gT l (fun _ => 1) (gIter l (fun _ => 1) (priorOf l p) k) s := by
    intro k s hs
    have := (usums_pos hp k).2 s hs
    rw [usums_succ] at this
    rw [← usums_gIter]
    show 0 < 1 * sumTrust l _ s
    rw [one_mul]
    exact this
  obtain ⟨s0, hs0⟩ := allSources_nonempty hl
  refine (gIter_change hl (w := fun _ => 1) (fun _ _ => zero_le_one) (b := priorOf l p)
    (fun k => (hpos k s0 ((mem_allSources l).1 hs0)).trans_le (le_top (f := gT l _ _) hs0))
    (fun k s hs => (hpos k s hs).le) hlo (Ω := Real.sqrt a) ?_ ?_ m k).trans ?_
  · intro s hs _
    obtain ⟨c, hc⟩ := claimsOf_nonempty l hs
    show lo ≤ 1 * ∑ c ∈ claimsOf l s, priorOf l p c
    rw [one_mul]
    exact (hb c (mem_claims_of_claimsOf l hc)).1.trans
      (Finset.single_le_sum (fun d hd => (hp d (mem_claims_of_claimsOf l hd)).le) hc)
  · intro s _
    rw [one_mul]
    refine Real.sqrt_le_sqrt ?_
    unfold nClaims
    exact_mod_cast ha s
  · rw [mul_div_assoc (spread _ _)]
    refine mul_le_mul_of_nonneg_left ?_ hsp
    have h1 : len2 (allClaims l) (priorOf l p) ≤ Real.sqrt (allClaims l).card * ((allSources l).card * lo) :=
      len2_le_of (by positivity) fun c hc => by
        have hc' := (mem_allClaims l).1 hc
        rw [abs_of_pos (hp c hc')]
        exact (hb c hc').2
    have h2 : 2 * (Real.sqrt a * len2 (allClaims l) (priorOf l p)) ≤
        2 * (Real.sqrt a * (Real.sqrt (allClaims l).card * ((allSources l).card * lo))) :=
      mul_le_mul_of_nonneg_left (mul_le_mul_of_nonneg_left h1 (Real.sqrt_nonneg _)) zero_le_two
    refine (div_le_div_of_nonneg_right h2 (by positivity)).trans (le_of_eq ?_)
    rw [Real.sqrt_mul (Nat.cast_nonneg _)]
    field_simp

theorem avlog_change (hm : ∃ s, Multi l s) (p : Prior) (m : Measure) (k : Nat) :
    stepChange m l (avlogStep l) ((fun _ => 0), priorOf l p) (k + 1) ≤
      spread m (allSources l).card * (4 * (allSources l).card * Real.sqrt (allClaims l).card) / (k + 1) := by
  have hl : l ≠ [] := by
    rintro rfl
    obtain ⟨s, hs⟩ := hm
    unfold Multi at hs
    have : claimsOf ([] : List (S × V × X)) s = ∅ := rfl
    rw [this] at hs
    simp at hs
  have hp : ∀ c ∈ claims l, 0 < priorOf l p c := fun c hc => priorOf_pos p hc
  obtain ⟨lo, hlo, hb⟩ := prior_bounds hl p
  have hsp : 0 ≤ spread m (allSources l).card := by
    cases m <;> simp only [spread] <;> positivity
  unfold stepChange
  rw [avlog_gIter hm hp, avlog_gIter hm hp]
  refine (gIter_change hl (w := weight l) (fun s hs => weight_nonneg hs) (b := priorOf l p) ?_ ?_ (half_pos hlo) (Ω := 1) ?_ ?_ m k).trans ?_
  · intro k
    have := (avlog_top hm (wIter_inv hp k)).1
    rw [wIter_gIter] at this
    exact this
  · intro k s hs
    rw [← wIter_gIter]
    exact avT_nonneg (wIter_inv hp k).1 hs
  · intro s hs hw
    have h1 : (1 : ℝ) ≤ nClaims l s := by
      have := (claimsOf_nonempty l hs).card_pos
      unfold nClaims; exact_mod_cast this
    have h2 : (2 : ℝ) ≤ nClaims l s := by
      have hne : (claimsOf l s).card ≠ 1 := by
        intro e
        apply hw
        simp [weight, nClaims, e]
      have := (claimsOf_nonempty l hs).card_pos
      have : 2 ≤ (claimsOf l s).card := by omega
      unfold nClaims; exact_mod_cast this
    have h3 : nClaims l s * lo ≤ ∑ c ∈ claimsOf l s, priorOf l p c := by
      have : ∑ _c ∈ claimsOf l s, lo ≤ ∑ c ∈ claimsOf l s, priorOf l p c :=
        Finset.sum_le_sum fun c hc => (hb c (mem_claims_of_claimsOf l hc)).1
      rwa [Finset.sum_const, nsmul_eq_mul] at this
    have h4 : 1 / 2 ≤ Real.log (nClaims l s) := by
      have := Real.log_le_log two_pos h2
      have := Real.one_sub_inv_le_log_of_pos (two_pos (α := ℝ))
      norm_num at this
      linarith
    calc lo / 2 = 1 / 2 * lo := by ring
      _ ≤ Real.log (nClaims l s) * lo := mul_le_mul_of_nonneg_right h4 hlo.le
      _ = weight l s * (nClaims l s * lo) := by unfold weight; field_simp
      _ ≤ weight l s * ∑ c ∈ claimsOf l s, priorOf l p c := mul_le_mul_of_nonneg_left h3 (weight_nonneg hs)
  · intro s hs
    have h1 : (0 : ℝ) < nClaims l s := nClaims_pos l hs
    have h2 := log_le_sqrt h1
    have h3 := Real.mul_self_sqrt h1.le
    unfold weight
    rw [div_mul_eq_mul_div, div_le_one h1]
    calc Real.log (nClaims l s) * Real.sqrt (nClaims l s) ≤ Real.sqrt (nClaims l s) * Real.sqrt (nClaims l s) :=
          mul_le_mul_of_nonneg_right h2 (Real.sqrt_nonneg _)
      _ = _ := h3
  · rw [mul_div_assoc (spread _ _)]
    refine mul_le_mul_of_nonneg_left ?_ hsp
    have h1 : len2 (allClaims l) (priorOf l p) ≤ Real.sqrt (allClaims l).card * ((allSources l).card * lo) :=
      len2_le_of (by positivity) fun c hc => by
        have hc' := (mem_allClaims l).1 hc
        rw [abs_of_pos (hp c hc')]
        exact (hb c hc').2
    have h2 : 2 * (1 * len2 (allClaims l) (priorOf l p)) ≤
        2 * (1 * (Real.sqrt (allClaims l).card * ((allSources l).card * lo))) := by linarith
    refine (div_le_div_of_nonneg_right h2 (by positivity)).trans (le_of_eq ?_)
    field_simp
    ring

end TD
