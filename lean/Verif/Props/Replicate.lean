import Verif.Props.Part
import Verif.Props.Unbounded
import Verif.Spec.Replicate
/-!
# C94: replicated evidence
-/

namespace TD
open Spec Ex
attribute [-instance] instBEqProd

variable {S V X : Type} [DecidableEq S] [DecidableEq V] [DecidableEq X] {l : List (S × V × X)}
  {l' : List ((S × Nat) × (V × Nat) × X)} {m n : Nat}

/-- The copy `j` of a claim. -/
def cpy (c : V × X) (j : Nat) : (V × Nat) × X := ((c.1, j), c.2)

theorem rep_mem (h : Replicated m n l l') (s : S) (i : Nat) (c : V × X) (j : Nat) :
    ((s, i), cpy c j) ∈ recorded l' ↔ i < m ∧ j < n ∧ (s, c) ∈ recorded l := h s i c.1 j c.2

theorem rep_sum_claims (h : Replicated m n l l') {s : S} {i : Nat} (hi : i < m) (g : (V × Nat) × X → ℝ) :
    ∑ c ∈ claimsOf l' (s, i), g c = ∑ c ∈ claimsOf l s, ∑ j ∈ Finset.range n, g (cpy c j) := by
  rw [← Finset.sum_product' (f := fun c j => g (cpy c j))]
  refine Finset.sum_nbij' (fun c => ((c.1.1, c.2), c.1.2)) (fun q => cpy q.1 q.2) ?_ ?_ ?_ ?_ ?_
  · rintro ⟨⟨v, j⟩, x⟩ hc
    rw [mem_claimsOf l', h] at hc
    rw [Finset.mem_product, Finset.mem_range, mem_claimsOf l]
    exact ⟨hc.2.2, hc.2.1⟩
  · rintro ⟨c, j⟩ hc
    rw [Finset.mem_product, Finset.mem_range, mem_claimsOf l] at hc
    rw [mem_claimsOf l', rep_mem h]
    exact ⟨hi, hc.2, hc.1⟩
  · rintro ⟨⟨v, j⟩, x⟩ _; rfl
  · rintro ⟨c, j⟩ _; rfl
  · rintro ⟨⟨v, j⟩, x⟩ _; rfl

theorem rep_sum_sources (h : Replicated m n l l') {c : V × X} {j : Nat} (hj : j < n) (g : S × Nat → ℝ) :
    ∑ s ∈ sourcesOf l' (cpy c j), g s = ∑ s ∈ sourcesOf l c, ∑ i ∈ Finset.range m, g (s, i) := by
  rw [← Finset.sum_product' (f := fun s i => g (s, i))]
  refine Finset.sum_congr ?_ fun _ _ => rfl
  ext ⟨s, i⟩
  rw [mem_sourcesOf l', rep_mem h, Finset.mem_product, Finset.mem_range, mem_sourcesOf l]
  tauto

theorem rep_claims (h : Replicated m n l l') (hm : 0 < m) (c : V × X) (j : Nat) :
    cpy c j ∈ claims l' ↔ j < n ∧ c ∈ claims l := by
  rw [mem_claims l', mem_claims l]
  constructor
  · rintro ⟨⟨⟨s, i⟩, d⟩, ht, rfl⟩
    have := (rep_mem h s i c j).1 ht
    exact ⟨this.2.1, _, this.2.2, rfl⟩
  · rintro ⟨hj, ⟨s, d⟩, ht, rfl⟩
    exact ⟨((s, 0), cpy d j), (rep_mem h s 0 d j).2 ⟨hm, hj, ht⟩, rfl⟩

theorem rep_sources (h : Replicated m n l l') (hn : 0 < n) (s : S) (i : Nat) :
    (s, i) ∈ sources l' ↔ i < m ∧ s ∈ sources l := by
  rw [← mem_allSources l', ← mem_allSources l, allSources, allSources, List.mem_toFinset, List.mem_toFinset,
    List.mem_map, List.mem_map]
  constructor
  · rintro ⟨⟨⟨s', i'⟩, ⟨v, j⟩, x⟩, ht, e⟩
    cases e
    have := (h s i v j x).1 ht
    exact ⟨this.1, _, this.2.2, rfl⟩
  · rintro ⟨hi, ⟨s', v, x⟩, ht, rfl⟩
    exact ⟨((s', i), (v, 0), x), (h s' i v 0 x).2 ⟨hi, hn, ht⟩, rfl⟩

theorem rep_sum_rivals (h : Replicated m n l l') (hm : 0 < m) {c : V × X} {j : Nat} (hj : j < n)
    (g : (V × Nat) × X → ℝ) : ∑ d ∈ rivals l' (cpy c j), g d = ∑ d ∈ rivals l c, g (cpy d j) := by
  refine Finset.sum_nbij' (fun d => (d.1.1, d.2)) (fun d => cpy d j) ?_ ?_ ?_ ?_ ?_
  · rintro ⟨⟨v, i⟩, x⟩ hd
    rw [mem_rivals l'] at hd
    obtain ⟨hd, e⟩ := hd
    cases e
    rw [mem_rivals l]
    exact ⟨((rep_claims h hm (c.1, x) j).1 hd).2, rfl⟩
  · rintro d hd
    rw [mem_rivals l] at hd
    rw [mem_rivals l', rep_claims h hm]
    exact ⟨⟨hj, hd.1⟩, by simp only [cpy, hd.2]⟩
  · rintro ⟨⟨v, i⟩, x⟩ hd
    rw [mem_rivals l'] at hd
    have := hd.2
    simp only [cpy, Prod.mk.injEq] at this
    simp only [cpy, this.2]
  · rintro d hd; rfl
  · rintro ⟨⟨v, i⟩, x⟩ hd
    rw [mem_rivals l'] at hd
    have := hd.2
    simp only [cpy, Prod.mk.injEq] at this
    simp only [cpy, this.2]

theorem rep_nClaims (h : Replicated m n l l') {s : S} {i : Nat} (hi : i < m) :
    nClaims l' (s, i) = n * nClaims l s := by
  have := rep_sum_claims h (s := s) hi (fun _ => 1)
  simp only [Finset.sum_const, Finset.card_range, nsmul_eq_mul, mul_one] at this
  rw [nClaims, nClaims, this, mul_comm]

theorem rep_nSources (h : Replicated m n l l') {c : V × X} {j : Nat} (hj : j < n) :
    nSources l' (cpy c j) = m * nSources l c := by
  have := rep_sum_sources h (c := c) hj (fun _ => 1)
  simp only [Finset.sum_const, Finset.card_range, nsmul_eq_mul, mul_one] at this
  rw [nSources, nSources, this, mul_comm]

/-- Scores of the copies are those of the originals up to factors. -/
def RepScores (m n : Nat) (l : List (S × V × X)) (a b : ℝ) (p : Scores S V X)
    (p' : Scores (S × Nat) (V × Nat) X) : Prop :=
  (∀ s ∈ sources l, ∀ i < m, p'.1 (s, i) = a * p.1 s) ∧
    ∀ c ∈ claims l, ∀ j < n, p'.2 (cpy c j) = b * p.2 c

theorem rep_topS (h : Replicated m n l l') (hm : 0 < m) (hn : 0 < n) (hl : l ≠ []) {a : ℝ} (ha : 0 < a) {t : S → ℝ}
    {t' : S × Nat → ℝ} (ht : ∀ s ∈ sources l, ∀ i < m, t' (s, i) = a * t s) :
    top (allSources l') t' = a * top (allSources l) t := by
  obtain ⟨s, hs, e⟩ := top_mem (f := t) (allSources_nonempty hl)
  have hs' := (mem_allSources l).1 hs
  refine top_eq_of ?_ ⟨(s, 0), (mem_allSources l').2 ((rep_sources h hn s 0).2 ⟨hm, hs'⟩), ?_⟩
  · rintro ⟨s, i⟩ hsi
    rw [mem_allSources l', rep_sources h hn] at hsi
    rw [ht s hsi.2 i hsi.1]
    exact mul_le_mul_of_nonneg_left (le_top ((mem_allSources l).2 hsi.2)) ha.le
  · rw [ht s hs' 0 hm, e]

theorem rep_topC (h : Replicated m n l l') (hm : 0 < m) (hn : 0 < n) (hl : l ≠ []) {a : ℝ} (ha : 0 < a) {t : V × X → ℝ}
    {t' : (V × Nat) × X → ℝ} (ht : ∀ c ∈ claims l, ∀ j < n, t' (cpy c j) = a * t c) :
    top (allClaims l') t' = a * top (allClaims l) t := by
  obtain ⟨s, hs, e⟩ := top_mem (f := t) (allClaims_nonempty hl)
  have hs' := (mem_allClaims l).1 hs
  refine top_eq_of ?_ ⟨cpy s 0, (mem_allClaims l').2 ((rep_claims h hm s 0).2 ⟨hn, hs'⟩), ?_⟩
  · rintro ⟨⟨v, j⟩, x⟩ hsi
    have hc := (rep_claims h hm (v, x) j).1 ((mem_allClaims l').1 hsi)
    have e := ht (v, x) hc.2 j hc.1
    simp only [cpy] at e
    rw [e]
    exact mul_le_mul_of_nonneg_left (le_top ((mem_allClaims l).2 hc.2)) ha.le
  · rw [ht s hs' 0 hn, e]

theorem rep_norm (h : Replicated m n l l') (hm : 0 < m) (hn : 0 < n) (hl : l ≠ []) {a b : ℝ} (ha : 0 < a) (hb : 0 < b)
    {p : Scores S V X} {p' : Scores (S × Nat) (V × Nat) X} (hp : RepScores m n l a b p p') :
    RepScores m n l 1 1 (normBoth l p) (normBoth l' p') := by
  constructor
  · intro s hs i hi
    simp only [normBoth, scaled]
    rw [rep_topS h hm hn hl ha hp.1, hp.1 s hs i hi, one_mul, mul_div_mul_left _ _ ha.ne']
  · intro c hc j hj
    simp only [normBoth, scaled]
    rw [rep_topC h hm hn hl hb hp.2, hp.2 c hc j hj, one_mul, mul_div_mul_left _ _ hb.ne']

theorem rep_sumTrust (h : Replicated m n l l') {b : ℝ} {q : V × X → ℝ} {q' : (V × Nat) × X → ℝ}
    (hq : ∀ c ∈ claims l, ∀ j < n, q' (cpy c j) = b * q c) {s : S} {i : Nat} (hi : i < m) :
    sumTrust l' q' (s, i) = n * b * sumTrust l q s := by
  unfold sumTrust
  rw [rep_sum_claims h hi, Finset.mul_sum]
  refine Finset.sum_congr rfl fun c hc => ?_
  rw [Finset.sum_congr rfl fun j hj => hq c (mem_claims_of_claimsOf l hc) j (Finset.mem_range.1 hj)]
  simp only [Finset.sum_const, Finset.card_range, nsmul_eq_mul]
  ring

theorem rep_sumBelief (h : Replicated m n l l') {a : ℝ} {q : S → ℝ} {q' : S × Nat → ℝ}
    (hq : ∀ s ∈ sources l, ∀ i < m, q' (s, i) = a * q s) {c : V × X} {j : Nat} (hj : j < n) :
    sumBelief l' q' (cpy c j) = m * a * sumBelief l q c := by
  unfold sumBelief
  rw [rep_sum_sources h hj, Finset.mul_sum]
  refine Finset.sum_congr rfl fun s hs => ?_
  rw [Finset.sum_congr rfl fun i hi => hq s (mem_sources_of_sourcesOf l hs) i (Finset.mem_range.1 hi)]
  simp only [Finset.sum_const, Finset.card_range, nsmul_eq_mul]
  ring

theorem rep_invested (h : Replicated m n l l') {a : ℝ} {q : S → ℝ} {q' : S × Nat → ℝ}
    (hq : ∀ s ∈ sources l, ∀ i < m, q' (s, i) = a * q s) {c : V × X} {j : Nat} (hj : j < n) :
    invested l' q' (cpy c j) = m * (a / n) * invested l q c := by
  refine rep_sumBelief h (q := fun s => q s / nClaims l s) (q' := fun s => q' s / nClaims l' s) ?_ hj
  intro s hs i hi
  rw [hq s hs i hi, rep_nClaims h hi, mul_div_mul_comm]

theorem rep_regained (h : Replicated m n l l') (hm : 0 < m) (hn : 0 < n) {a b : ℝ} (ha : 0 < a)
    {p : Scores S V X} {p' : Scores (S × Nat) (V × Nat) X} (hp : RepScores m n l a b p p') {s : S}
    (hs : s ∈ sources l) {i : Nat} (hi : i < m) : regained l' p' (s, i) = n * b / m * regained l p s := by
  unfold regained
  rw [rep_sum_claims h hi, Finset.mul_sum]
  have hm' : (0 : ℝ) < m := by exact_mod_cast hm
  have hn' : (0 : ℝ) < n := by exact_mod_cast hn
  refine Finset.sum_congr rfl fun c hc => ?_
  have hc' := mem_claims_of_claimsOf l hc
  have : ∀ j ∈ Finset.range n, p'.2 (cpy c j) * (p'.1 (s, i) / nClaims l' (s, i) / invested l' p'.1 (cpy c j)) =
      b / m * (p.2 c * (p.1 s / nClaims l s / invested l p.1 c)) := by
    intro j hj
    rw [hp.2 c hc' j (Finset.mem_range.1 hj), hp.1 s hs i hi, rep_nClaims h hi,
      rep_invested h hp.1 (Finset.mem_range.1 hj), mul_div_mul_comm,
      show (m : ℝ) * (a / n) * invested l p.1 c = (a / n) * (m * invested l p.1 c) by ring,
      mul_div_mul_left _ _ (div_pos ha hn').ne']
    rw [mul_comm (m : ℝ), ← div_div]
    ring
  rw [Finset.sum_congr rfl this]
  simp only [Finset.sum_const, Finset.card_range, nsmul_eq_mul]
  ring

theorem rep_sums (h : Replicated m n l l') (hm : 0 < m) (hn : 0 < n) (hl : l ≠ []) {a b : ℝ} (hb : 0 < b)
    {p : Scores S V X} {p' : Scores (S × Nat) (V × Nat) X} (hp : RepScores m n l a b p p') :
    RepScores m n l 1 1 (sumsStep l p) (sumsStep l' p') := by
  have hm' : (0 : ℝ) < m := by exact_mod_cast hm
  have hn' : (0 : ℝ) < n := by exact_mod_cast hn
  have ht : ∀ s ∈ sources l, ∀ i < m, sumTrust l' p'.2 (s, i) = n * b * sumTrust l p.2 s :=
    fun s _ i hi => rep_sumTrust h hp.2 hi
  exact rep_norm h hm hn hl (a := n * b) (b := m * (n * b)) (by positivity) (by positivity)
    (p := (sumTrust l p.2, sumBelief l (sumTrust l p.2)))
    (p' := (sumTrust l' p'.2, sumBelief l' (sumTrust l' p'.2))) ⟨ht, fun c _ j hj => rep_sumBelief h ht hj⟩

theorem rep_avlog (h : Replicated m 1 l l') (hm : 0 < m) (hl : l ≠ []) {a b : ℝ} (hb : 0 < b)
    {p : Scores S V X} {p' : Scores (S × Nat) (V × Nat) X} (hp : RepScores m 1 l a b p p') :
    RepScores m 1 l 1 1 (avlogStep l p) (avlogStep l' p') := by
  have hm' : (0 : ℝ) < m := by exact_mod_cast hm
  have ht : ∀ s ∈ sources l, ∀ i < m, avT l' p'.2 (s, i) = b * avT l p.2 s := by
    intro s _ i hi
    unfold avT
    rw [rep_sumTrust h hp.2 hi, rep_nClaims h hi]
    simp only [Nat.cast_one, one_mul]
    ring
  exact rep_norm h hm one_pos hl (a := b) (b := m * b) hb (by positivity)
    (p := (avT l p.2, sumBelief l (avT l p.2)))
    (p' := (avT l' p'.2, sumBelief l' (avT l' p'.2))) ⟨ht, fun c _ j hj => rep_sumBelief h ht hj⟩

theorem rep_invest (h : Replicated m n l l') (hm : 0 < m) (hn : 0 < n) (hl : l ≠ []) (g : ℝ) {a b : ℝ} (ha : 0 < a)
    (hb : 0 < b) {p : Scores S V X} {p' : Scores (S × Nat) (V × Nat) X} (hp : RepScores m n l a b p p')
    (hi : PosAll l p) : RepScores m n l 1 1 (investStep l g p) (investStep l' g p') := by
  have hm' : (0 : ℝ) < m := by exact_mod_cast hm
  have hn' : (0 : ℝ) < n := by exact_mod_cast hn
  have hr : ∀ s ∈ sources l, 0 < regained l p s := fun s hs => regained_pos hi hs
  have ht : ∀ s ∈ sources l, ∀ i < m, regained l' p' (s, i) = n * b / m * regained l p s :=
    fun s hs i hi => rep_regained h hm hn ha hp hs hi
  have hk : (0 : ℝ) < m * (n * b / m / n) := by positivity
  refine rep_norm h hm hn hl (a := n * b / m) (b := (m * (n * b / m / n)) ^ g) (by positivity)
    (Real.rpow_pos_of_pos hk g)
    (p := (regained l p, fun c => invested l (regained l p) c ^ g))
    (p' := (regained l' p', fun c => invested l' (regained l' p') c ^ g)) ⟨ht, ?_⟩
  intro c hc j hj
  dsimp only
  rw [rep_invested h ht hj, Real.mul_rpow hk.le (invested_pos hr hc).le]

theorem rep_pooled (h : Replicated m n l l') (hm : 0 < m) (hn : 0 < n) (hl : l ≠ []) (g : ℝ) {a b : ℝ} (ha : 0 < a)
    (hb : 0 < b) {p : Scores S V X} {p' : Scores (S × Nat) (V × Nat) X} (hp : RepScores m n l a b p p')
    (hi : PosAll l p) : RepScores m n l 1 1 (pooledStep l g p) (pooledStep l' g p') := by
  have hm' : (0 : ℝ) < m := by exact_mod_cast hm
  have hn' : (0 : ℝ) < n := by exact_mod_cast hn
  have hr : ∀ s ∈ sources l, 0 < regained l p s := fun s hs => regained_pos hi hs
  have ht : ∀ s ∈ sources l, ∀ i < m, regained l' p' (s, i) = n * b / m * regained l p s :=
    fun s hs i hi => rep_regained h hm hn ha hp hs hi
  have hk : (0 : ℝ) < m * (n * b / m / n) := by positivity
  have hpow : ∀ c ∈ claims l, ∀ j < n, invested l' (regained l' p') (cpy c j) ^ g =
      (m * (n * b / m / n)) ^ g * invested l (regained l p) c ^ g := by
    intro c hc j hj
    rw [rep_invested h ht hj, Real.mul_rpow hk.le (invested_pos hr hc).le]
  refine rep_norm h hm hn hl (a := n * b / m) (b := m * (n * b / m / n)) (by positivity) hk
    (p := (regained l p, fun c => invested l (regained l p) c *
      (invested l (regained l p) c ^ g / ∑ d ∈ rivals l c, invested l (regained l p) d ^ g)))
    (p' := (regained l' p', fun c => invested l' (regained l' p') c *
      (invested l' (regained l' p') c ^ g / ∑ d ∈ rivals l' c, invested l' (regained l' p') d ^ g))) ⟨ht, ?_⟩
  intro c hc j hj
  dsimp only
  rw [rep_sum_rivals h hm hj, Finset.sum_congr rfl fun d hd => hpow d ((mem_rivals l).1 hd).1 j hj, ← Finset.mul_sum,
    hpow c hc j hj, mul_div_mul_left _ _ (Real.rpow_pos_of_pos hk g).ne', rep_invested h ht hj, mul_assoc]

theorem rep_impVal (f : Option (V → X → X → Option ℝ)) (v : V) (j : Nat) (x y : X) :
    impVal (copyImp f) (v, j) x y = impVal f v x y := by
  cases f <;> rfl

theorem rep_tf (h : Replicated 1 n l l') (hn : 0 < n) (f : Option (V → X → X → Option ℝ)) (rho gamma : ℝ)
    {p : Scores S V X} {p' : Scores (S × Nat) (V × Nat) X} (hp : RepScores 1 n l 1 1 p p') :
    RepScores 1 n l 1 1 (tfStep l (impVal f) rho gamma p) (tfStep l' (impVal (copyImp f)) rho gamma p') := by
  have htau : ∀ s ∈ sources l, ∀ i < 1, -Real.log (1 - p'.1 (s, i)) = 1 * -Real.log (1 - p.1 s) := by
    intro s hs i hi
    rw [hp.1 s hs i hi, one_mul, one_mul]
  have hsig : ∀ c : V × X, ∀ j < n, ∑ s ∈ sourcesOf l' (cpy c j), -Real.log (1 - p'.1 s) =
      ∑ s ∈ sourcesOf l c, -Real.log (1 - p.1 s) := by
    intro c j hj
    have := rep_sumBelief h (q := fun s => -Real.log (1 - p.1 s)) (q' := fun s => -Real.log (1 - p'.1 s)) htau
      (c := c) hj
    simpa [sumBelief] using this
  have hb : ∀ c ∈ claims l, ∀ j < n, (tfStep l' (impVal (copyImp f)) rho gamma p').2 (cpy c j) =
      1 * (tfStep l (impVal f) rho gamma p).2 c := by
    intro c hc j hj
    have e : ∑ d ∈ (rivals l' (cpy c j)).erase (cpy c j), impVal (copyImp f) (cpy c j).1 d.2 (cpy c j).2 *
        ∑ s ∈ sourcesOf l' d, -Real.log (1 - p'.1 s) =
        ∑ d ∈ (rivals l c).erase c, impVal f c.1 d.2 c.2 * ∑ s ∈ sourcesOf l d, -Real.log (1 - p.1 s) := by
      have hc1 : c ∈ rivals l c := (mem_rivals l).2 ⟨hc, rfl⟩
      have hc2 : cpy c j ∈ rivals l' (cpy c j) := (mem_rivals l').2 ⟨(rep_claims h one_pos c j).2 ⟨hj, hc⟩, rfl⟩
      rw [Finset.sum_erase_eq_sub hc2, Finset.sum_erase_eq_sub hc1, rep_sum_rivals h one_pos hj, hsig c j hj]
      congr 1
      · refine Finset.sum_congr rfl fun d _ => ?_
        rw [hsig d j hj]
        exact congrArg (· * _) (rep_impVal f c.1 j d.2 c.2)
      · exact congrArg (· * _) (rep_impVal f c.1 j c.2 c.2)
    simp only [tfStep, one_mul]
    rw [e, hsig c j hj]
  refine ⟨fun s hs i hi => ?_, hb⟩
  show sumTrust l' (tfStep l' (impVal (copyImp f)) rho gamma p').2 (s, i) / nClaims l' (s, i) =
    1 * (sumTrust l (tfStep l (impVal f) rho gamma p).2 s / nClaims l s)
  have hn' : (n : ℝ) ≠ 0 := by exact_mod_cast hn.ne'
  rw [rep_sumTrust h hb hi, rep_nClaims h hi, mul_one, one_mul, mul_div_mul_left _ _ hn']

theorem rep_prior (h : Replicated m n l l') (hm : 0 < m) (p : Prior) {c : V × X} {j : Nat} (hj : j < n) :
    priorOf l' p (cpy c j) = (if p = .count then (m : ℝ) else 1) * priorOf l p c := by
  have hm' : (m : ℝ) ≠ 0 := by exact_mod_cast hm.ne'
  cases p with
  | fixed => simp [Spec.priorOf, priorFixed]
  | voted =>
    simp only [Spec.priorOf, priorVoted]
    rw [rep_sum_rivals h hm hj, Finset.sum_congr rfl fun d _ => rep_nSources h hj, ← Finset.mul_sum,
      rep_nSources h hj, mul_div_mul_left _ _ hm']
    simp
  | count => simp only [Spec.priorOf, priorCount, if_true]; exact rep_nSources h hj
  | uniform =>
    simp only [Spec.priorOf, priorUniform]
    have := rep_sum_rivals h hm (c := c) hj (fun _ => 1)
    simp only [Finset.sum_const, nsmul_eq_mul, mul_one] at this
    rw [this]
    simp

theorem copies_of (h : Replicated m n l l') (hm : 0 < m) (hn : 0 < n) {r : Result S V X Ex}
    {r' : Result (S × Nat) (V × Nat) X Ex} {p : Scores S V X} {p' : Scores (S × Nat) (V × Nat) X}
    (hr : Reports l r p) (hr' : Reports l' r' p') (hp : RepScores m n l 1 1 p p') : Copies m n r r' := by
  constructor
  · intro s i
    rw [hr'.1, hr.1]
    by_cases hi : i < m
    · by_cases hs : s ∈ sources l
      · rw [if_pos ((mem_allSources l').2 ((rep_sources h hn s i).2 ⟨hi, hs⟩)), if_pos hi,
          if_pos ((mem_allSources l).2 hs), hp.1 s hs i hi, one_mul]
      · rw [if_neg fun e => hs ((rep_sources h hn s i).1 ((mem_allSources l').1 e)).2, if_pos hi,
          if_neg fun e => hs ((mem_allSources l).1 e)]
    · rw [if_neg fun e => hi ((rep_sources h hn s i).1 ((mem_allSources l').1 e)).1, if_neg hi]
  · intro v j x
    rw [hr'.2, hr.2]
    have hmem := rep_claims h hm (v, x) j
    simp only [cpy] at hmem
    by_cases hi : j < n
    · by_cases hs : (v, x) ∈ claims l
      · have e := hp.2 (v, x) hs j hi
        simp only [cpy] at e
        rw [if_pos ((mem_allClaims l').2 (hmem.2 ⟨hi, hs⟩)), if_pos hi,
          if_pos ((mem_allClaims l).2 hs), e, one_mul]
      · rw [if_neg fun e => hs (hmem.1 ((mem_allClaims l').1 e)).2, if_pos hi,
          if_neg fun e => hs ((mem_allClaims l).1 e)]
    · rw [if_neg fun e => hi (hmem.1 ((mem_allClaims l').1 e)).1, if_neg hi]

theorem rep_ne_nil (h : Replicated m n l l') (hm : 0 < m) (hn : 0 < n) (hl : l ≠ []) : l' ≠ [] := by
  rintro rfl
  obtain ⟨s, hs⟩ := allSources_nonempty hl
  have := (rep_sources h hn s 0).2 ⟨hm, (mem_allSources l).1 hs⟩
  simp [sources, firsts, firstsBy] at this

theorem rep_iterate {step : Scores S V X → Scores S V X}
    {step' : Scores (S × Nat) (V × Nat) X → Scores (S × Nat) (V × Nat) X} {Inv : Scores S V X → Prop}
    {init : Scores S V X} {init' : Scores (S × Nat) (V × Nat) X} (hinv : ∀ n, Inv (step^[n] init))
    (hstep : ∀ a b p p', 0 < a → 0 < b → RepScores m n l a b p p' → Inv p → RepScores m n l 1 1 (step p) (step' p'))
    {b : ℝ} (hb : 0 < b) (h0 : RepScores m n l 1 b init init') (k : Nat) (hk : k = 0 → b = 1) :
    RepScores m n l 1 1 (step^[k] init) (step'^[k] init') := by
  cases k with
  | zero => rw [hk rfl] at h0; exact h0
  | succ k =>
    rw [Function.iterate_succ_apply', Function.iterate_succ_apply']
    induction k with
    | zero => exact hstep 1 b _ _ one_pos hb h0 (hinv 0)
    | succ k ih =>
      rw [Function.iterate_succ_apply', Function.iterate_succ_apply']
      exact hstep 1 1 _ _ one_pos one_pos (ih (by simp)) (by
        have := hinv (k + 1)
        rwa [Function.iterate_succ_apply'] at this)

variable {f : Option (V → X → X → Option ℝ)}

/-- **C94.** Run an algorithm on a dataset and on the dataset with `m` copies of every source and `n`
copies of every variable, for the same number of iterations (with whatever iterators): every copy
gets exactly the score of the original.  For AverageLog only sources may be replicated, for
TruthFinder only variables (see `C94_average_log_differs` and `C94_truth_finder_differs`).  The number
of iterations must not be 0 if the prior beliefs are the numbers of sources (they are multiplied
by `m`). -/
theorem C94_replicated (h : Replicated m n l l') (hm : 0 < m) (hn : 0 < n) (hl : l ≠ []) {am am' : Bool}
    {d : Dataset S V X Ex} {d' : Dataset (S × Nat) (V × Nat) X Ex}
    (hd : Dataset.mk' l am (finImp f) = .ok d) (hd' : Dataset.mk' l' am' (finImp (copyImp f)) = .ok d')
    {k : Kind Ex} {pr : Option Prior} {it it' : IterCfg Ex} (hk : Spec.Kind.Replicable m n k)
    (hc : Sound l ⟨k, it, pr⟩) {fuel fuel' : Nat} {clock clock' : Nat → Ex} {st st' : IterState Ex}
    {r : Result S V X Ex} {r' : Result (S × Nat) (V × Nat) X Ex}
    (hr : AlgCfg.run ⟨k, it, pr⟩ d fuel clock st = .ok r)
    (hr' : AlgCfg.run ⟨k, it', pr⟩ d' fuel' clock' st' = .ok r') (hn' : r.iterations = r'.iterations)
    (hpr : r.iterations = some 0 → pr = some .count → m = 1) : Copies m n r r' := by
  obtain rfl := mk'_ex hd
  obtain rfl := mk'_ex hd'
  have hl' := rep_ne_nil h hm hn hl
  have hu : k ≠ .unboundedSums := by rintro rfl; exact hk
  have fin : ∀ {init : Scores S V X} {init' : Scores (S × Nat) (V × Nat) X} {step step'} {cmp cmp' Inv Inv'} {b : ℝ},
      Implements ⟨k, it, pr⟩ l (finImp f) init step cmp Inv →
      Implements ⟨k, it', pr⟩ l' (finImp (copyImp f)) init' step' cmp' Inv' → 0 < b →
      RepScores m n l 1 b init init' → (r.iterations = some 0 → b = 1) →
      (∀ a b p p', 0 < a → 0 < b → RepScores m n l a b p p' → Inv p → RepScores m n l 1 1 (step p) (step' p')) →
      Copies m n r r' := by
    intro init init' step step' cmp cmp' Inv Inv' b H H' hb h0 hb0 hstep
    obtain ⟨q, h1, h2⟩ := H.run_reports hu hr
    obtain ⟨q', h1', h2'⟩ := H'.run_reports hu hr'
    have hq : q = q' := by
      have := hn'
      rw [h1, h1'] at this
      exact Option.some.inj this
    subst hq
    exact copies_of h hm hn h2 h2' (rep_iterate H.inv_iterate hstep hb h0 q
      fun e => hb0 (by rw [h1, e]))
  have hprior : ∀ (x : ℝ) (p : Prior), RepScores m n l 1 (if p = .count then (m : ℝ) else 1)
      ((fun _ => x), priorOf l p) ((fun _ => x), priorOf l' p) :=
    fun x p => ⟨fun _ _ _ _ => (one_mul _).symm, fun c _ j hj => rep_prior h hm p hj⟩
  have hpos : ∀ p : Prior, (0 : ℝ) < if p = .count then (m : ℝ) else 1 := by
    intro p; split <;> [exact_mod_cast hm; exact one_pos]
  have hone : ∀ p : Prior, pr = some p → r.iterations = some 0 → (if p = .count then (m : ℝ) else 1) = 1 := by
    intro p hp h0
    split
    · subst ‹p = _›
      exact_mod_cast hpr h0 hp
    · rfl
  cases k with
  | sums =>
    obtain ⟨p, rfl⟩ := Option.ne_none_iff_exists'.1 hc
    exact fin (sums_implements _ hl it p) (sums_implements _ hl' it' p) (hpos p) (hprior 0 p) (hone p rfl)
      fun a b p p' _ hb hp _ => rep_sums h hm hn hl hb hp
  | averageLog =>
    obtain ⟨hc, s, hs⟩ := hc
    obtain ⟨p, rfl⟩ := Option.ne_none_iff_exists'.1 hc
    cases (show n = 1 from hk)
    have hm' : ∃ s, Multi l' s := ⟨(s, 0), by
      have e := rep_nClaims h (s := s) hm
      unfold nClaims at e
      have e' : (claimsOf l' (s, 0)).card = (claimsOf l s).card := by
        have : ((claimsOf l' (s, 0)).card : ℝ) = (claimsOf l s).card := by rw [e]; push_cast; ring
        exact_mod_cast this
      unfold Multi
      rw [e']
      exact hs⟩
    exact fin (avlog_implements _ it p ⟨s, hs⟩) (avlog_implements _ it' p hm') (hpos p) (hprior 0 p) (hone p rfl)
      fun a b p p' _ hb hp _ => rep_avlog h hm hl hb hp
  | investment g =>
    obtain ⟨hc, y, rfl⟩ := hc
    obtain ⟨p, rfl⟩ := Option.ne_none_iff_exists'.1 hc
    exact fin (invest_implements _ hl it p y) (invest_implements _ hl' it' p y) (hpos p) (hprior 1 p) (hone p rfl)
      fun a b p p' ha hb hp hi => rep_invest h hm hn hl y ha hb hp hi
  | pooledInvestment g =>
    obtain ⟨hc, y, rfl⟩ := hc
    obtain ⟨p, rfl⟩ := Option.ne_none_iff_exists'.1 hc
    exact fin (pooled_implements _ hl it p y) (pooled_implements _ hl' it' p y) (hpos p) (hprior 1 p) (hone p rfl)
      fun a b p p' ha hb hp hi => rep_pooled h hm hn hl y ha hb hp hi
  | truthFinder rho gamma t =>
    obtain ⟨x, y, z, rfl, rfl, rfl, h0, h1⟩ := hc
    cases (show m = 1 from hk)
    obtain ⟨q, h1', h2⟩ := (tf_implements f it pr x y z h0 h1).run_reports (by simp) hr
    obtain ⟨q', h1'', h2'⟩ := (tf_implements (copyImp f) it' pr x y z h0 h1).run_reports (by simp) hr'
    have hq : q = q' := by
      have := hn'
      rw [h1', h1''] at this
      exact Option.some.inj this
    subst hq
    refine copies_of h hm hn h2 h2' ?_
    clear h2 h2' h1' h1''
    induction q with
    | zero => exact ⟨fun _ _ _ _ => (one_mul _).symm, fun _ _ _ _ => (one_mul _).symm⟩
    | succ n ih =>
      rw [Function.iterate_succ_apply', Function.iterate_succ_apply']
      exact rep_tf h hn _ _ _ ih
  | crh => exact hk.elim
  | unboundedSums => exact hk.elim

/-- **C94.** Majority voting. -/
theorem C94_voting (h : Replicated m n l l') (hm : 0 < m) (hn : 0 < n) (hl : l ≠ []) {am am' : Bool}
    {f : Option (V → X → X → Option Ex)} {f' : Option (V × Nat → X → X → Option Ex)}
    {d : Dataset S V X Ex} {d' : Dataset (S × Nat) (V × Nat) X Ex} (hd : Dataset.mk' l am f = .ok d)
    (hd' : Dataset.mk' l' am' f' = .ok d') {clock clock' : Nat → Ex} {r : Result S V X Ex}
    {r' : Result (S × Nat) (V × Nat) X Ex} (hr : votingRun d clock = .ok r) (hr' : votingRun d' clock' = .ok r') :
    Copies m n r r' := by
  have hl' := rep_ne_nil h hm hn hl
  obtain ⟨_, h1, h2, -⟩ := C29_voting l am f d hd hl clock
  obtain ⟨_, h1', h2', -⟩ := C29_voting l' am' f' d' hd' hl' clock'
  cases hr.symm.trans h1
  cases hr'.symm.trans h1'
  have hm' : (0 : ℝ) < m := by exact_mod_cast hm
  refine copies_of h hm hn h2 h2' ⟨fun _ _ _ _ => (one_mul _).symm, fun c hc j hj => ?_⟩
  have e : ∀ c ∈ claims l, ∀ j < n, nSources l' (cpy c j) = m * nSources l c := fun c _ j hj => rep_nSources h hj
  simp only [voting, scaled]
  rw [rep_topC h hm hn hl hm' e, e c hc j hj, mul_div_mul_left _ _ hm'.ne', one_mul]

theorem rep_usums (h : Replicated m n l l') (hm : 0 < m) (hn : 0 < n) (p : Prior) (k : Nat) :
    ∃ a b : ℝ, 0 < a ∧ 0 < b ∧ RepScores m n l a b (usums l (priorOf l p) k) (usums l' (priorOf l' p) k) := by
  have hm' : (0 : ℝ) < m := by exact_mod_cast hm
  have hn' : (0 : ℝ) < n := by exact_mod_cast hn
  induction k with
  | zero =>
    refine ⟨1, if p = .count then (m : ℝ) else 1, one_pos, ?_, fun _ _ _ _ => (one_mul _).symm,
      fun c _ j hj => rep_prior h hm p hj⟩
    split
    · exact hm'
    · exact one_pos
  | succ k ih =>
    obtain ⟨a, b, ha, hb, hp⟩ := ih
    refine ⟨n * b, m * (n * b), by positivity, by positivity, ?_⟩
    unfold usums at *
    rw [Function.iterate_succ_apply', Function.iterate_succ_apply']
    have ht : ∀ s ∈ sources l, ∀ i < m, sumTrust l' ((usumsStep l')^[k] ((fun _ => 0), priorOf l' p)).2 (s, i) =
        n * b * sumTrust l ((usumsStep l)^[k] ((fun _ => 0), priorOf l p)).2 s :=
      fun s _ i hi => rep_sumTrust h hp.2 hi
    exact ⟨ht, fun c _ j hj => rep_sumBelief h ht hj⟩

theorem rank_image {A B : Type} {F : Finset A} {F' : Finset B} {f : A → ℝ} {f' : B → ℝ} {a : ℝ} (ha : 0 < a)
    (h : F'.image f' = (F.image f).image (a * ·)) {x : A} {y : B} (hx : f' y = a * f x) : rank F' f' y = rank F f x := by
  unfold rank
  rw [h, hx, Finset.filter_image, Finset.card_image_of_injective _ (mul_right_injective₀ ha.ne')]
  congr 1
  refine Finset.filter_congr fun z _ => ?_
  exact mul_lt_mul_iff_right₀ ha

/-- **C94.** UnboundedSums (which reports ranks, and stops when the ranking has not changed for a while)
needs the same number of iterations for a replicated dataset, and gives each copy the rank of the
original. -/
theorem C94_unbounded_sums (h : Replicated m n l l') (hm : 0 < m) (hn : 0 < n) (hl : l ≠ []) {am am' : Bool}
    {f : Option (V → X → X → Option Ex)} {f' : Option (V × Nat → X → X → Option Ex)}
    {d : Dataset S V X Ex} {d' : Dataset (S × Nat) (V × Nat) X Ex} (hd : Dataset.mk' l am f = .ok d)
    (hd' : Dataset.mk' l' am' f' = .ok d') {p : Prior} {th : Int} {fuel fuel' : Nat} {clock clock' : Nat → Ex}
    {st st' : IterState Ex} {r : Result S V X Ex} {r' : Result (S × Nat) (V × Nat) X Ex}
    (hr : AlgCfg.run ⟨.unboundedSums, .ord th, some p⟩ d fuel clock st = .ok r)
    (hr' : AlgCfg.run ⟨.unboundedSums, .ord th, some p⟩ d' fuel' clock' st' = .ok r') :
    r.iterations = r'.iterations ∧ Copies m n r r' := by
  have hl' := rep_ne_nil h hm hn hl
  obtain ⟨k, e, hrep, hs, hb⟩ := C37_unbounded_sums l am f d hd hl th p fuel clock st r hr
  obtain ⟨k', e', hrep', hs', hb'⟩ := C37_unbounded_sums l' am' f' d' hd' hl' th p fuel' clock' st' r' hr'
  have hset : ∀ k, Settled l (priorOf l p) th k ↔ Settled l' (priorOf l' p) th k := by
    intro k
    unfold Settled
    refine and_congr_right fun _ => forall_congr' fun i => imp_congr_right fun _ => imp_congr_right fun _ => ?_
    obtain ⟨a, b, ha, hb, hp⟩ := rep_usums h hm hn p i
    obtain ⟨a', b', ha', hb', hp'⟩ := rep_usums h hm hn p (i + 1)
    constructor
    · rintro hso ⟨s, i⟩ hs ⟨s', i'⟩ hs'
      rw [mem_allSources l', rep_sources h hn] at hs hs'
      rw [hp.1 s hs.2 i hs.1, hp.1 s' hs'.2 i' hs'.1, hp'.1 s hs.2 i hs.1, hp'.1 s' hs'.2 i' hs'.1,
        mul_lt_mul_iff_right₀ ha, mul_lt_mul_iff_right₀ ha']
      exact hso s ((mem_allSources l).2 hs.2) s' ((mem_allSources l).2 hs'.2)
    · intro hso s hs s' hs'
      rw [mem_allSources l] at hs hs'
      have := hso (s, 0) ((mem_allSources l').2 ((rep_sources h hn s 0).2 ⟨hm, hs⟩)) (s', 0)
        ((mem_allSources l').2 ((rep_sources h hn s' 0).2 ⟨hm, hs'⟩))
      rwa [hp.1 s hs 0 hm, hp.1 s' hs' 0 hm, hp'.1 s hs 0 hm, hp'.1 s' hs' 0 hm,
        mul_lt_mul_iff_right₀ ha, mul_lt_mul_iff_right₀ ha'] at this
  have hk : k = k' := by
    rcases lt_trichotomy k k' with h | h | h
    · exact absurd ((hset k).1 hs) (hb' k h)
    · exact h
    · exact absurd ((hset k').2 hs') (hb k' h)
  subst hk
  refine ⟨by rw [e, e'], copies_of h hm hn hrep hrep' ?_⟩
  obtain ⟨a, b, ha, hb, hp⟩ := rep_usums h hm hn p k
  constructor
  · intro s hs i hi
    simp only [ranks, one_mul, Nat.cast_inj]
    refine rank_image ha ?_ (hp.1 s hs i hi)
    ext y
    simp only [Finset.mem_image, mem_allSources]
    constructor
    · rintro ⟨⟨s, i⟩, hs, rfl⟩
      rw [rep_sources h hn] at hs
      exact ⟨_, ⟨s, hs.2, rfl⟩, (hp.1 s hs.2 i hs.1).symm⟩
    · rintro ⟨_, ⟨s, hs, rfl⟩, rfl⟩
      exact ⟨(s, 0), (rep_sources h hn s 0).2 ⟨hm, hs⟩, hp.1 s hs 0 hm⟩
  · intro c hc j hj
    simp only [ranks, one_mul, Nat.cast_inj]
    refine rank_image hb ?_ (hp.2 c hc j hj)
    ext y
    simp only [Finset.mem_image, mem_allClaims]
    constructor
    · rintro ⟨⟨⟨v, j⟩, x⟩, hs, rfl⟩
      have hs' := (rep_claims h hm (v, x) j).1 hs
      exact ⟨_, ⟨(v, x), hs'.2, rfl⟩, (hp.2 (v, x) hs'.2 j hs'.1).symm⟩
    · rintro ⟨_, ⟨c, hs, rfl⟩, rfl⟩
      exact ⟨cpy c 0, (rep_claims h hm c 0).2 ⟨hn, hs⟩, hp.2 c hs 0 hn⟩

theorem copiesOf_noRepeats (m n : Nat) (l : List (S × V × X)) : NoRepeats (copiesOf m n l) := by
  have hnd : ((recorded l).map fun t => (t.1, t.2.1)).Nodup :=
    nodup_map_firstsBy (fun t : S × V × X => (t.1, t.2.1)) l
  unfold NoRepeats copiesOf
  rw [List.map_flatMap]
  refine List.nodup_flatMap.2 ⟨fun t _ => ?_, ?_⟩
  · rw [List.map_flatMap]
    refine List.nodup_flatMap.2 ⟨fun i _ => ?_, ?_⟩
    · rw [List.map_map]
      refine List.nodup_range.map ?_
      intro j j' e
      simpa using e
    · refine List.nodup_range.imp ?_
      intro i i' hii
      rw [Function.onFun, List.disjoint_left]
      intro a ha ha'
      simp only [List.map_map, List.mem_map, Function.comp] at ha ha'
      obtain ⟨j, -, rfl⟩ := ha
      obtain ⟨j', -, e⟩ := ha'
      simp only [Prod.mk.injEq] at e
      exact hii e.1.2.symm
  · refine (List.pairwise_map.1 hnd).imp ?_
    intro t t' htt
    rw [Function.onFun, List.disjoint_left]
    intro a ha ha'
    simp only [List.map_flatMap, List.map_map, List.mem_flatMap, List.mem_map, Function.comp] at ha ha'
    obtain ⟨i, -, j, -, rfl⟩ := ha
    obtain ⟨i', -, j', -, e⟩ := ha'
    simp only [Prod.mk.injEq] at e
    exact htt (by rw [e.1.1, e.2.1])

/-- **C94.** Every dataset can be replicated. -/
theorem C94_exists (m n : Nat) (l : List (S × V × X)) : Replicated m n l (copiesOf m n l) := by
  intro s i v j x
  rw [recorded_eq_self (copiesOf_noRepeats m n l)]
  simp only [copiesOf, List.mem_flatMap, List.mem_map, List.mem_range, Prod.mk.injEq]
  constructor
  · rintro ⟨⟨s', v', x'⟩, ht, i', hi, j', hj, ⟨rfl, rfl⟩, ⟨rfl, rfl⟩, rfl⟩
    exact ⟨hi, hj, ht⟩
  · rintro ⟨hi, hj, ht⟩
    exact ⟨_, ht, i, hi, j, hj, ⟨rfl, rfl⟩, ⟨rfl, rfl⟩, rfl⟩

/-- Three sources, two claims about one of two variables. -/
def smallList : List (Nat × Nat × Nat) := [(0, 0, 5), (1, 0, 6), (2, 0, 6), (2, 1, 7)]

/-- Non-vacuity: both runs exist, for any numbers of copies. -/
example (m n : Nat) (clock clock' : Nat → Ex) (h : 0 < m) (hn : 0 < n) :
    ∃ (d : Dataset Nat Nat Nat Ex) (d' : Dataset (Nat × Nat) (Nat × Nat) Nat Ex) (r : Result Nat Nat Nat Ex)
      (r' : Result (Nat × Nat) (Nat × Nat) Nat Ex), Dataset.mk' smallList false none = .ok d ∧
      Dataset.mk' (copiesOf m n smallList) false none = .ok d' ∧
      (⟨.investment (fin 2), .fixed 3, some .voted⟩ : AlgCfg Ex).run d 100 clock {} = .ok r ∧
      (⟨.investment (fin 2), .fixed 3, some .voted⟩ : AlgCfg Ex).run d' 100 clock' {} = .ok r' ∧
      Copies m n r r' := by
  have hl : smallList ≠ [] := by decide
  have hrep := C94_exists m n smallList
  have hl' := rep_ne_nil hrep h hn hl
  obtain ⟨d, hd⟩ := exists_dataset smallList (by decide)
  obtain ⟨d', hd'⟩ := exists_dataset _ (copiesOf_noRepeats m n smallList)
  obtain ⟨r, hr, e, -⟩ := (C33_investment _ _ _ d hd hl (.fixed 3) .voted 2).2.2 3 100 clock {} (by norm_num)
  obtain ⟨r', hr', e', -⟩ := (C33_investment _ _ _ d' hd' hl' (.fixed 3) .voted 2).2.2 3 100 clock' {} (by norm_num)
  refine ⟨d, d', r, r', hd, hd', hr, hr', ?_⟩
  exact C94_replicated hrep h hn hl (f := none) hd hd' (k := .investment (fin 2)) trivial ⟨by simp, 2, rfl⟩ hr hr'
    (by rw [e, e']) (by simp)

/-- **C94**, limits: with copies of the sources TruthFinder gives other scores, whatever the (positive)
initial trust and the damping factor (unless that is 0). -/
theorem C94_truth_finder_differs {gamma t0 : ℝ} (hg : gamma ≠ 0) (h0 : 0 < t0) (h1 : t0 < 1) (rho : ℝ)
    (pr : Option Prior) (clock clock' : Nat → Ex) :
    ∃ (d : Dataset Nat Nat Nat Ex) (d' : Dataset (Nat × Nat) (Nat × Nat) Nat Ex) (r : Result Nat Nat Nat Ex)
      (r' : Result (Nat × Nat) (Nat × Nat) Nat Ex), Dataset.mk' [(0, 0, 0)] false none = .ok d ∧
      Dataset.mk' (copiesOf 2 1 [(0, 0, 0)]) false none = .ok d' ∧
      (⟨.truthFinder (fin rho) (fin gamma) (fin t0), .fixed 1, pr⟩ : AlgCfg Ex).run d 2 clock {} = .ok r ∧
      (⟨.truthFinder (fin rho) (fin gamma) (fin t0), .fixed 1, pr⟩ : AlgCfg Ex).run d' 2 clock' {} = .ok r' ∧
      ¬ Copies 2 1 r r' := by
  obtain ⟨d, hd⟩ := exists_dataset [(0, 0, 0)] (by decide)
  obtain ⟨d', hd'⟩ := exists_dataset _ (copiesOf_noRepeats 2 1 [(0, 0, 0)])
  obtain ⟨r, hr, -, p⟩ := (C35_truth_finder _ _ none d hd (by simp) (.fixed 1) pr rho gamma t0 h0.le h1).2.2 1 2 clock {}
    (by norm_num)
  obtain ⟨r', hr', -, p'⟩ := (C35_truth_finder _ _ none d' hd' (by decide) (.fixed 1) pr rho gamma t0 h0.le h1).2.2 1 2
    clock' {} (by norm_num)
  refine ⟨d, d', r, r', hd, hd', hr, hr', fun h => ?_⟩
  have e := h.2 0 0 0
  rw [if_pos one_pos, p.2, p'.2, if_pos (by decide), if_pos (by decide)] at e
  simp only [Option.some.injEq, fin_inj, Function.iterate_one, tfStep] at e
  rw [show sourcesOf (copiesOf 2 1 [(0, 0, 0)]) ((0, 0), 0) = {(0, 0), (0, 1)} by decide,
    show sourcesOf [(0, 0, 0)] (0, 0) = {0} by decide,
    show (rivals (copiesOf 2 1 [(0, 0, 0)]) ((0, 0), 0)).erase ((0, 0), 0) = ∅ by decide,
    show (rivals [(0, 0, 0)] (0, 0)).erase (0, 0) = ∅ by decide] at e
  rw [Finset.sum_pair (by decide)] at e
  simp only [Finset.sum_singleton, Finset.sum_empty, mul_zero, add_zero, one_div, inv_inj, add_right_inj,
    Real.exp_eq_exp] at e
  have hlog : Real.log (1 - t0) ≠ 0 := (Real.log_neg (by linarith) (by linarith)).ne
  have : gamma * Real.log (1 - t0) = 0 := by linarith
  rcases mul_eq_zero.1 this with h | h
  · exact hg h
  · exact hlog h

/-- **C94**, limits: with copies of the sources CRH gives other scores, whatever the tolerance. -/
theorem C94_crh_differs {eps : ℝ} (h0 : 0 < eps) (pr : Option Prior) (clock clock' : Nat → Ex) :
    ∃ (d : Dataset Nat Nat Nat Ex) (d' : Dataset (Nat × Nat) (Nat × Nat) Nat Ex) (r : Result Nat Nat Nat Ex)
      (r' : Result (Nat × Nat) (Nat × Nat) Nat Ex), Dataset.mk' [(0, 0, 0)] false none = .ok d ∧
      Dataset.mk' (copiesOf 2 1 [(0, 0, 0)]) false none = .ok d' ∧
      (⟨.crh (fin eps), .fixed 1, pr⟩ : AlgCfg Ex).run d 2 clock {} = .ok r ∧
      (⟨.crh (fin eps), .fixed 1, pr⟩ : AlgCfg Ex).run d' 2 clock' {} = .ok r' ∧
      ¬ Copies 2 1 r r' := by
  obtain ⟨d, hd⟩ := exists_dataset [(0, 0, 0)] (by decide)
  obtain ⟨d', hd'⟩ := exists_dataset _ (copiesOf_noRepeats 2 1 [(0, 0, 0)])
  obtain ⟨r, hr, -, p⟩ := (C36_crh _ _ none d hd (by simp) (.fixed 1) pr eps h0).2.2 1 2 clock {} (by norm_num)
  obtain ⟨r', hr', -, p'⟩ := (C36_crh _ _ none d' hd' (by decide) (.fixed 1) pr eps h0).2.2 1 2 clock' {}
    (by norm_num)
  refine ⟨d, d', r, r', hd, hd', hr, hr', fun h => ?_⟩
  have e := h.1 0 0
  rw [if_pos two_pos, p.1, p'.1, if_pos (by decide), if_pos (by decide)] at e
  simp only [Option.some.injEq, fin_inj, Function.iterate_one, crhStep] at e
  have hl2 : ∀ b, loss (copiesOf 2 1 [(0, 0, 0)]) b (0, 1) = loss (copiesOf 2 1 [(0, 0, 0)]) b (0, 0) := by
    intro b
    unfold loss
    rw [show claimsOf (copiesOf 2 1 [(0, 0, 0)]) (0, 1) = claimsOf (copiesOf 2 1 [(0, 0, 0)]) (0, 0) by decide]
  rw [show allSources (copiesOf 2 1 [(0, 0, 0)]) = {(0, 0), (0, 1)} by decide,
    show allSources [(0, 0, 0)] = {0} by decide, Finset.sum_pair (by decide), hl2, Finset.sum_singleton] at e
  have hpos : ∀ {S V X : Type} [DecidableEq S] [DecidableEq V] [DecidableEq X] (l : List (S × V × X)) b s,
      0 < eps + loss l b s := fun l b s =>
    add_pos_of_pos_of_nonneg h0 (Finset.sum_nonneg fun _ _ => Finset.sum_nonneg fun _ _ => sq_nonneg _)
  rw [div_self (hpos _ _ _).ne', ← two_mul, mul_comm, ← div_div, div_self (hpos _ _ _).ne', Real.log_one, one_div,
    Real.log_inv] at e
  have := Real.log_pos one_lt_two
  linarith

/-- **C94**, limits: with copies of the variables AverageLog gives other scores (also when some
source makes two claims). -/
theorem C94_average_log_differs (p : Prior) (clock clock' : Nat → Ex) :
    ∃ (d : Dataset Nat Nat Nat Ex) (d' : Dataset (Nat × Nat) (Nat × Nat) Nat Ex) (r : Result Nat Nat Nat Ex)
      (r' : Result (Nat × Nat) (Nat × Nat) Nat Ex), Dataset.mk' [(0, 0, 0), (0, 1, 0), (1, 2, 0)] false none = .ok d ∧
      Dataset.mk' (copiesOf 1 2 [(0, 0, 0), (0, 1, 0), (1, 2, 0)]) false none = .ok d' ∧
      (⟨.averageLog, .fixed 1, some p⟩ : AlgCfg Ex).run d 2 clock {} = .ok r ∧
      (⟨.averageLog, .fixed 1, some p⟩ : AlgCfg Ex).run d' 2 clock' {} = .ok r' ∧
      ¬ Copies 1 2 r r' := by
  obtain ⟨d, hd⟩ := exists_dataset [(0, 0, 0), (0, 1, 0), (1, 2, 0)] (by decide)
  obtain ⟨d', hd'⟩ := exists_dataset _ (copiesOf_noRepeats 1 2 [(0, 0, 0), (0, 1, 0), (1, 2, 0)])
  have hm : ∃ s, 2 ≤ (claimsOf [(0, 0, 0), (0, 1, 0), (1, 2, 0)] s).card := ⟨0, by decide⟩
  have hm1 : 2 ≤ (claimsOf (copiesOf 1 2 [(0, 0, 0), (0, 1, 0), (1, 2, 0)]) (1, 0)).card := by decide
  obtain ⟨r, hr, -, q⟩ := (C32_average_log _ _ none d hd hm (.fixed 1) p).2.2 1 2 clock {} (by norm_num)
  obtain ⟨r', hr', -, q'⟩ := (C32_average_log _ _ none d' hd' ⟨_, hm1⟩ (.fixed 1) p).2.2 1 2 clock' {} (by norm_num)
  refine ⟨d, d', r, r', hd, hd', hr, hr', fun h => ?_⟩
  have e := h.1 1 0
  rw [if_pos one_pos, q.1, q'.1, if_pos (by decide), if_pos (by decide)] at e
  simp only [Option.some.injEq, fin_inj, Function.iterate_one] at e
  have e1 : (avlogStep [(0, 0, 0), (0, 1, 0), (1, 2, 0)] ((fun _ => 0),
      priorOf [(0, 0, 0), (0, 1, 0), (1, 2, 0)] p)).1 1 = 0 := by
    have : nClaims [(0, 0, 0), (0, 1, 0), (1, 2, 0)] 1 = 1 := by
      unfold nClaims
      rw [show (claimsOf [(0, 0, 0), (0, 1, 0), (1, 2, 0)] 1).card = 1 by decide, Nat.cast_one]
    simp only [avlogStep, normBoth, scaled, this, Real.log_one, zero_div, zero_mul]
  rw [e1] at e
  have hinv : AvInv (copiesOf 1 2 [(0, 0, 0), (0, 1, 0), (1, 2, 0)]) ((fun _ => 0),
      priorOf (copiesOf 1 2 [(0, 0, 0), (0, 1, 0), (1, 2, 0)]) p) :=
    (avlog_implements none (.fixed 1) p ⟨_, hm1⟩).inv_iterate 0
  have := scaled_pos (F := allSources (copiesOf 1 2 [(0, 0, 0), (0, 1, 0), (1, 2, 0)])) (a := (1, 0)) (by decide)
    (avT_pos hinv hm1)
  exact absurd e this.ne'

end TD
