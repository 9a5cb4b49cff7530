import Verif.Lemmas.CosineNear
/-! Runs of Sums and AverageLog with a convergence iterator, in double precision and exactly. -/

namespace TD
open Spec Double
attribute [-instance] instBEqProd
variable {S V X : Type} [DecidableEq S] [DecidableEq V] [DecidableEq X] {ω : Platform}

/-- An algorithm whose iterations in double precision follow the exact ones. -/
structure Tracks (c : AlgCfg (FP (.binary64 ω))) (l : List (S × V × X))
    (f : Option (V → X → X → Option (FP (.binary64 ω)))) (x0 : Scores S V X) (Q : S → Prop)
    (step : Scores S V X → Scores S V X) (q w W : Nat) : Prop where
  next : ∀ p k x bl t, AccIn l ω Q p k 1 x bl → p + w ≤ 1022 →
      ∃ s, c.kind.body (matsOf l f) t bl = .ok (some s) ∧ AccOut l ω Q (p + w) (k + q) (step x) s.trust s.belief
  first : ∀ p k x bl t, AccIn l ω Q p k (sources l).length x bl → p + W ≤ 1022 →
      ∃ s, c.kind.body (matsOf l f) t bl = .ok (some s) ∧ AccOut l ω Q (p + W) (k + q) (step x) s.trust s.belief
  start : ∃ b, c.init (matsOf l f) = .ok (zeros (matsOf l f).numSources, b) ∧ AccIn l ω Q 53 1 (sources l).length x0 b
  cmp : ∀ t b s, c.kind.body (matsOf l f) t b = .ok (some s) →
    s.cmp1 = t ∧ s.cmp2 = s.trust ∨ s.cmp1 = s.trust ∧ s.cmp2 = t
  goes : ∀ t b, c.kind.body (matsOf l f) t b ≠ .ok none
  fin : ∀ t b, c.finish t b = .ok (t, b)
  zero : ∀ s, x0.1 s = 0

theorem tracks_sums {l : List (S × V × X)} (f : Option (V → X → X → Option (FP (.binary64 ω)))) (hl : l ≠ [])
    {a b w : Nat} (hsize : Sizes l a b w) (it : IterCfg (FP (.binary64 ω))) (p : Prior) :
    Tracks ⟨.sums, it, some p⟩ l f ((fun _ => 0), priorOf l p) (fun _ => True) (sumsStep l) (a + b + 1) w (2 * w) where
  next := sums_body_out f hsize hl
  first := sums_first_out f hsize hl
  start := by
    obtain ⟨s, hs⟩ := List.exists_mem_of_ne_nil _ (sources_ne hl)
    obtain ⟨b, e, h⟩ := prior_in (ω := ω) l f hl (hsize.bounds hl).1 p (fun _ => True) ⟨s, hs, trivial⟩
    exact ⟨b, by simp only [AlgCfg.init, e]; rfl, h⟩
  cmp := by
    intro t b s h
    obtain ⟨a, c, h1, h2, h3⟩ := normalise2_ok (g := fun a b => ⟨t, a, a, b⟩) h
    cases h3
    exact .inl ⟨rfl, rfl⟩
  goes := by
    intro t b h
    obtain ⟨a, c, h1, h2, h3⟩ := normalise2_ok (g := fun a b => ⟨t, a, a, b⟩) h
    cases h3
  fin := fun _ _ => rfl
  zero := fun _ => rfl

theorem tracks_avlog {l : List (S × V × X)} (f : Option (V → X → X → Option (FP (.binary64 ω)))) (hl : l ≠ [])
    {a b w : Nat} (hsize : Sizes l a b w) (hw : w ≤ 53) (hm : ∃ s, 2 ≤ (claimsOf l s).card) (it : IterCfg (FP (.binary64 ω)))
    (p : Prior) :
    Tracks ⟨.averageLog, it, some p⟩ l f ((fun _ => 0), priorOf l p) (Multi l) (avlogStep l) (a + b + 5) (2 * w + 1)
      (3 * w + 1) where
  next := avlog_body_out f hsize hw hl
  first := avlog_first_out f hsize hw hl
  start := by
    obtain ⟨s, hs⟩ := hm
    obtain ⟨c, hc⟩ := Finset.card_pos.1 (by omega : 0 < (claimsOf l s).card)
    obtain ⟨b, e, h⟩ := prior_in (ω := ω) l f hl (hsize.bounds hl).1 p (Multi l)
      ⟨s, mem_sources_of_sourcesOf l ((mem_sourcesOf l).2 ((mem_claimsOf l).1 hc)), hs⟩
    exact ⟨b, by simp only [AlgCfg.init, e]; rfl, h⟩
  cmp := by
    intro t b s h
    obtain ⟨a, c, h1, h2, h3⟩ := normalise2_ok (g := fun a b => ⟨a, t, a, b⟩) h
    cases h3
    exact .inr ⟨rfl, rfl⟩
  goes := by
    intro t b h
    obtain ⟨a, c, h1, h2, h3⟩ := normalise2_ok (g := fun a b => ⟨a, t, a, b⟩) h
    cases h3
  fin := fun _ _ => rfl
  zero := fun _ => rfl

/-- A vector of trust scores close to exact ones. -/
def TrustNear (ω : Platform) (l : List (S × V × X)) (δ : ℝ) (x : S → ℝ) (t : Vec (FP (.binary64 ω))) : Prop :=
  ∃ T : S → ℝ, t = (sources l).map (fun s => FP.fin (T s)) ∧
    ∀ s ∈ sources l, IsDouble (T s) ∧ 0 ≤ T s ∧ T s ≤ 1 ∧ |T s - x s| ≤ δ

/-- Distances depend on the vectors continuously. -/
theorem distance_lip {A : Type} (F : Finset A) (hF : F.Nonempty) (m : Measure) (hm : m ≠ .cosine) (v w v' w' : A → ℝ) :
    distance m F v w ≤ distance m F v' w' + ∑ a ∈ F, (|v a - v' a| + |w a - w' a|) := by
  have key : ∀ a, |v a - w a| ≤ |v' a - w' a| + (|v a - v' a| + |w a - w' a|) := by
    intro a
    have e : v a - w a = (v' a - w' a) + ((v a - v' a) - (w a - w' a)) := by ring
    rw [e]
    exact (abs_add_le _ _).trans (add_le_add le_rfl (abs_sub _ _))
  cases m with
  | l1 =>
    simp only [distance]
    rw [← Finset.sum_add_distrib]
    exact Finset.sum_le_sum fun a _ => key a
  | l2 =>
    simp only [distance]
    have e : (fun a => v a - w a) = fun a => (v' a - w' a) + ((v a - v' a) - (w a - w' a)) := by funext a; ring
    rw [e]
    refine (len2_add_le F _ _).trans (add_le_add le_rfl ((len2_le_sum F _).trans ?_))
    exact Finset.sum_le_sum fun a _ => abs_sub _ _
  | lInf =>
    simp only [distance]
    obtain ⟨i, hi, h⟩ := top_mem (F := F) (f := fun i => |v i - w i|) hF
    rw [← h]
    refine (key i).trans (add_le_add (le_top (f := fun i => |v' i - w' i|) hi) ?_)
    exact Finset.single_le_sum (f := fun a => |v a - v' a| + |w a - w' a|)
      (fun a _ => add_nonneg (abs_nonneg _) (abs_nonneg _)) hi
  | cosine => exact absurd rfl hm

theorem distance_lip_card {A : Type} (F : Finset A) (hF : F.Nonempty) (m : Measure) (hm : m ≠ .cosine) (v w : A → ℝ)
    (hv : ∀ a ∈ F, 0 ≤ v a ∧ v a ≤ 1) (hw : ∀ a ∈ F, 0 ≤ w a ∧ w a ≤ 1) : distance m F v w ≤ F.card := by
  have h := distance_lip F hF m hm v w w w
  have h0 : distance m F w w = 0 := by
    cases m with
    | l1 => simp [distance]
    | l2 => simp [distance, len2]
    | lInf =>
      simp only [distance, sub_self, abs_zero]
      obtain ⟨i, hi, h⟩ := top_mem (F := F) (f := fun _ => (0 : ℝ)) hF
      exact h.symm
    | cosine => exact absurd rfl hm
  rw [h0, zero_add] at h
  refine h.trans ?_
  rw [Finset.card_eq_sum_ones, Nat.cast_sum]
  refine Finset.sum_le_sum fun a ha => ?_
  rw [sub_self, abs_zero, add_zero, Nat.cast_one, abs_le]
  constructor <;> linarith [(hv a ha).1, (hv a ha).2, (hw a ha).1, (hw a ha).2]

/-- The computed distance of two vectors of trust scores close to exact ones, whose scores are wrong by at most `ε`. -/
theorem TrustNear.distance_real {l : List (S × V × X)} (hl : l ≠ []) (hn : (allSources l).card ≤ 2 ^ 50) (m : Measure) (hm : m ≠ .cosine)
    {ε : ℝ} {x x' : S → ℝ} {t t' : Vec (FP (.binary64 ω))} (h : TrustNear ω l ε x t)
    (h' : TrustNear ω l ε x' t') :
    ∃ y, getDistance (some m) t t' = .ok (FP.fin y) ∧
      |y - Spec.distance m (allSources l) x x'| ≤ (allSources l).card * (((allSources l).card + 3) / 2 ^ 51 + 2 * ε) := by
  obtain ⟨T, rfl, hT⟩ := h
  obtain ⟨T', rfl, hT'⟩ := h'
  have hcard : (sources l).length = (allSources l).card := length_sources l
  have one : (1 : ℝ) ≤ 2 ^ (400 : ℤ) := one_le_zpow₀ one_le_two (by norm_num)
  obtain ⟨D0, y, hy, herr⟩ := list_err (ω := ω) (nodup_sources l) (sources_ne hl) (by rw [hcard]; exact hn) m hm T T'
    (fun s hs => ⟨(hT s hs).1, by rw [abs_of_nonneg (hT s hs).2.1]; exact (hT s hs).2.2.1.trans one⟩)
    (fun s hs => ⟨(hT' s hs).1, by rw [abs_of_nonneg (hT' s hs).2.1]; exact (hT' s hs).2.2.1.trans one⟩)
  rw [sources_toFinset, hcard] at herr
  refine ⟨y, hy, ?_⟩
  have hne := allSources_nonempty hl
  have hS : ∀ s ∈ allSources l, s ∈ sources l := fun s hs => (mem_allSources l).1 hs
  have hcle := distance_lip_card (allSources l) hne m hm T T' (fun s hs => ⟨(hT s (hS s hs)).2.1, (hT s (hS s hs)).2.2.1⟩)
    (fun s hs => ⟨(hT' s (hS s hs)).2.1, (hT' s (hS s hs)).2.2.1⟩)
  have hsum : ∑ s ∈ allSources l, (|T s - x s| + |T' s - x' s|) ≤ (allSources l).card * (2 * ε) := by
    rw [← nsmul_eq_mul]
    refine Finset.sum_le_card_nsmul _ _ _ fun s hs => ?_
    linarith [(hT s (hS s hs)).2.2.2, (hT' s (hS s hs)).2.2.2]
  have hsum' : ∑ s ∈ allSources l, (|x s - T s| + |x' s - T' s|) ≤ (allSources l).card * (2 * ε) := by
    refine le_trans (le_of_eq ?_) hsum
    exact Finset.sum_congr rfl fun s _ => by rw [abs_sub_comm, abs_sub_comm (x' s)]
  have l1 := distance_lip (allSources l) hne m hm T T' x x'
  have l2 := distance_lip (allSources l) hne m hm x x' T T'
  have hn1 : (1 : ℝ) ≤ (allSources l).card := by exact_mod_cast hne.card_pos
  have ekk : kk ≤ 1 / 2 ^ 51 := by
    have : (1 : ℝ) / 2 ^ 51 = 2 ^ (-51 : ℤ) := by rw [zpow_neg, one_div]; norm_num
    rw [this]
    exact zpow_le_zpow_right₀ one_le_two (by norm_num)
  have euu : 4 * uu = 1 / 2 ^ 51 := by
    have : (1 : ℝ) / 2 ^ 51 = 2 ^ (-51 : ℤ) := by rw [zpow_neg, one_div]; norm_num
    rw [this, uu, show (4 : ℝ) = 2 ^ (2 : ℤ) by norm_num, ← zpow_add₀ two_ne_zero]
    norm_num
  rw [euu] at herr
  generalize Spec.distance m (allSources l) T T' = D at *
  generalize Spec.distance m (allSources l) x x' = E at *
  generalize hN : ((allSources l).card : ℝ) = N at *
  have hDE : |D - E| ≤ N * (2 * ε) := by
    rw [abs_le]; constructor <;> linarith
  have h3 : (N + 2) * (1 / 2 ^ 51) * D ≤ (N + 2) * (1 / 2 ^ 51) * N :=
    mul_le_mul_of_nonneg_left hcle (by positivity)
  calc |y - E| ≤ |y - D| + |D - E| := abs_sub_le _ _ _
    _ ≤ (N + 2) * (1 / 2 ^ 51) * N + 1 / 2 ^ 51 + N * (2 * ε) := by linarith
    _ ≤ (N + 2) * (1 / 2 ^ 51) * N + N / 2 ^ 51 + N * (2 * ε) := by
      have : (1 : ℝ) / 2 ^ 51 ≤ N / 2 ^ 51 := div_le_div_of_nonneg_right hn1 (by positivity)
      linarith
    _ = N * ((N + 3) / 2 ^ 51 + 2 * ε) := by ring

/-- Trust scores after `n` iterations, close to exact ones: all 0 in the beginning, later the largest is 1. -/
def TopNear (ω : Platform) (l : List (S × V × X)) (δ : ℝ) (n : Nat) (x : S → ℝ) (t : Vec (FP (.binary64 ω))) : Prop :=
  ∃ T : S → ℝ, t = (sources l).map (fun s => FP.fin (T s)) ∧
    (∀ s ∈ sources l, IsDouble (T s) ∧ 0 ≤ T s ∧ T s ≤ 1 ∧ |T s - x s| ≤ δ) ∧
    (n = 0 → ∀ s ∈ sources l, T s = 0 ∧ x s = 0) ∧
    (n ≠ 0 → (∃ s ∈ sources l, T s = 1) ∧ ∃ s ∈ sources l, x s = 1)

theorem TopNear.near {l : List (S × V × X)} {δ : ℝ} {n : Nat} {x : S → ℝ} {t : Vec (FP (.binary64 ω))} (h : TopNear ω l δ n x t) :
    TrustNear ω l δ x t := by
  obtain ⟨T, h1, h2, -⟩ := h
  exact ⟨T, h1, h2⟩

theorem len2_one {l : List (S × V × X)} {v : S → ℝ} (h : ∃ s ∈ sources l, v s = 1) : 1 ≤ len2 (allSources l) v := by
  obtain ⟨s, hs, e⟩ := h
  refine Real.le_sqrt_of_sq_le ?_
  have := Finset.single_le_sum (f := fun a => v a ^ 2) (fun a _ => sq_nonneg _) ((mem_allSources l).2 hs)
  simpa [e] using this

/-- The computed distance, in multiples of `1 / 2 ^ 51`. -/
theorem TopNear.distance {l : List (S × V × X)} (hl : l ≠ []) (hn : (allSources l).card ≤ 2 ^ 40) (m : Measure)
    {K n : Nat} {x x' : S → ℝ} {t t' : Vec (FP (.binary64 ω))} (h : TopNear ω l (K / 2 ^ 51) n x t)
    (h' : TopNear ω l (K / 2 ^ 51) (n + 1) x' t') :
    ∃ y, getDistance (some m) t t' = .ok (FP.fin y) ∧ |y - Spec.distance m (allSources l) x x'| ≤ blur m l K := by
  by_cases hm : m = .cosine
  · subst hm
    have hb : 0 ≤ blur .cosine l K := by unfold blur; positivity
    obtain ⟨T, rfl, hT, h0, h1⟩ := h
    obtain ⟨T', rfl, hT', -, h2⟩ := h'
    obtain ⟨g2, g3⟩ := h2 (by omega)
    have unit : ∀ T : S → ℝ, (∀ s ∈ sources l, 0 ≤ T s ∧ T s ≤ 1) → ∀ s ∈ sources l, |T s| ≤ 1 := by
      intro T h s hs
      rw [abs_of_nonneg (h s hs).1]; exact (h s hs).2
    cases n with
    | zero =>
      refine ⟨1, cosine_zero hl hn T T' (fun s hs => (h0 rfl s hs).1) ?_, ?_⟩
      · exact unit T' fun s hs => ⟨(hT' s hs).2.1, (hT' s hs).2.2.1⟩
      · have e : len2 (allSources l) x = 0 := by
          unfold len2
          rw [Finset.sum_eq_zero fun s hs => by rw [(h0 rfl s ((mem_allSources l).1 hs)).2]; norm_num, Real.sqrt_zero]
        simp only [Spec.distance]
        rw [if_pos (.inl e), sub_self, abs_zero]
        exact hb
    | succ n =>
      obtain ⟨h4, h5⟩ := h1 (by omega)
      obtain ⟨y, hy, he⟩ := cosine_computed (ω := ω) hl hn T T' (unit T fun s hs => ⟨(hT s hs).2.1, (hT s hs).2.2.1⟩)
        (unit T' fun s hs => ⟨(hT' s hs).2.1, (hT' s hs).2.2.1⟩) ((by norm_num : (1 : ℝ) / 4 ≤ 1).trans (len2_one h4))
        ((by norm_num : (1 : ℝ) / 4 ≤ 1).trans (len2_one g2))
      refine ⟨y, hy, ?_⟩
      have hlip := cosine_lip_long (allSources l) (ε := (K : ℝ) / 2 ^ 51) (by positivity) (len2_one h4) (len2_one g2) (len2_one h5) (len2_one g3)
        (fun s hs => (hT s ((mem_allSources l).1 hs)).2.2.2) fun s hs => (hT' s ((mem_allSources l).1 hs)).2.2.2
      have : blur .cosine l K = ((allSources l).card + 2) / 2 ^ 48 + 4 * ((allSources l).card * (K / 2 ^ 51)) := by
        unfold blur
        simp only []
        ring
      rw [this]
      exact (abs_sub_le _ _ _).trans (add_le_add he hlip)
  · obtain ⟨y, hy, he⟩ := TrustNear.distance_real hl (hn.trans (by norm_num)) m hm h.near h'.near
    refine ⟨y, hy, he.trans_eq ?_⟩
    cases m
    case cosine => exact absurd rfl hm
    all_goals simp only [blur]; ring

theorem AccOut.topNear {l : List (S × V × X)} {Q : S → Prop} {p k K : Nat} {x : Scores S V X} {t b : Vec (FP (.binary64 ω))}
    (h : AccOut l ω Q p k x t b) (hk : k ≤ K) (hK : K ≤ 2 ^ 51) {n : Nat} (hn : n ≠ 0) : TopNear ω l (K / 2 ^ 51) n x.1 t := by
  obtain ⟨T, B, rfl, -, hT, -⟩ := h
  have h1 := hT.1.near hT.2.1 hT.2.2.1 hT.2.2.2
  refine ⟨T, rfl, fun s hs => ⟨?_, (hT.1.1 s hs).2.1.nonneg, ?_, ?_⟩, fun h => absurd h hn, fun _ => ⟨hT.2.1, hT.2.2.1⟩⟩
  · exact ((C31_nearest (ω := ω) (T s)).1 _ (hT.1.1 s hs).1).1
  · have := (hT.1.1 s hs).2.2.1
    simpa using this
  · have h2 := (h1 s hs).abs_sub_le (hT.1.1 s hs).2.2.2 (by omega : 2 * k ≤ 2 ^ 52)
    have h3 : x.1 s ≤ 1 := hT.2.2.2 s hs
    have h4 : 0 ≤ x.1 s := (hT.1.1 s hs).2.2.2
    have h5 : (k : ℝ) ≤ K := by exact_mod_cast hk
    have h6 : x.1 s * ((2 * k : Nat) : ℝ) ≤ 1 * (2 * K) := by
      refine mul_le_mul h3 ?_ (Nat.cast_nonneg _) zero_le_one
      push_cast; linarith
    refine h2.trans ?_
    have : (K : ℝ) / 2 ^ 51 = 1 * (2 * K) / 2 ^ 52 := by ring
    rw [this]
    exact div_le_div_of_nonneg_right h6 (by positivity)

theorem topNear_zeros (l : List (S × V × X)) (f : Option (V → X → X → Option (FP (.binary64 ω)))) {δ : ℝ} (hδ : 0 ≤ δ)
    {x : S → ℝ} (hx : ∀ s, x s = 0) : TopNear ω l δ 0 x (zeros (matsOf l f).numSources) := by
  refine ⟨fun _ => 0, ?_, fun s _ => ⟨?_, le_rfl, zero_le_one, by rw [hx]; simpa using hδ⟩, fun _ s _ => ⟨rfl, hx s⟩, fun h => absurd rfl h⟩
  · rw [zeros, FP.zero_eq, List.map_const']
    rfl
  · exact ((C31_nearest (ω := ω) 0).1 _ (rep_zero (R := .binary64 ω))).1

namespace Tracks
variable {c : AlgCfg (FP (.binary64 ω))} {l : List (S × V × X)} {f : Option (V → X → X → Option (FP (.binary64 ω)))}
  {x0 : Scores S V X} {Q : S → Prop} {step : Scores S V X → Scores S V X} {q w W : Nat}

/-- After `n` iterations the vectors are close to the exact ones. -/
theorem out (H : Tracks c l f x0 Q step q w W) {b0 : Vec (FP (.binary64 ω))}
    (hi : c.init (matsOf l f) = .ok (zeros (matsOf l f).numSources, b0)) {n : Nat} {st' t b L}
    (h : Steps c.iterator (c.kind.body (matsOf l f)) {} (zeros (matsOf l f).numSources) b0 n st' t b L) (hn : 1 ≤ n)
    (hr : 53 + W + (n - 1) * w ≤ 1022) :
    AccOut l ω Q (53 + W + (n - 1) * w) (1 + n * q) (step^[n] x0) t b := by
  obtain ⟨b1, hi1, hstart⟩ := H.start
  rw [hi] at hi1
  cases hi1
  exact (steps_out l H.next h hstart (W := W) (fun t hw => H.first _ _ _ _ t hstart hw)).1 hn hr

theorem near (H : Tracks c l f x0 Q step q w W) {b0 : Vec (FP (.binary64 ω))}
    (hi : c.init (matsOf l f) = .ok (zeros (matsOf l f).numSources, b0)) {n K : Nat} {st' t b L}
    (h : Steps c.iterator (c.kind.body (matsOf l f)) {} (zeros (matsOf l f).numSources) b0 n st' t b L) (hn : n ≤ K)
    (hr : 53 + W + (K - 1) * w ≤ 1022) (hK : K * q + 1 ≤ 2 ^ 51) :
    TopNear ω l ((K * q + 1 : Nat) / 2 ^ 51) n (step^[n] x0).1 t := by
  cases n with
  | zero =>
    cases h
    exact topNear_zeros l f (by positivity) H.zero
  | succ n =>
    refine (H.out hi h (by omega) ?_).topNear ?_ hK (by omega)
    · have : (n + 1 - 1) * w ≤ (K - 1) * w := Nat.mul_le_mul_right _ (by omega)
      omega
    · have : (n + 1) * q ≤ K * q := Nat.mul_le_mul_right _ hn
      omega

/-- A further iteration is possible. -/
theorem body (H : Tracks c l f x0 Q step q w W) {b0 : Vec (FP (.binary64 ω))}
    (hi : c.init (matsOf l f) = .ok (zeros (matsOf l f).numSources, b0)) {n K : Nat} {st' t b L}
    (h : Steps c.iterator (c.kind.body (matsOf l f)) {} (zeros (matsOf l f).numSources) b0 n st' t b L) (hn : n + 1 ≤ K)
    (hr : 53 + W + (K - 1) * w ≤ 1022) (hK : K * q + 1 ≤ 2 ^ 51) : ∃ s, c.kind.body (matsOf l f) t b = .ok (some s) ∧
      TopNear ω l ((K * q + 1 : Nat) / 2 ^ 51) (n + 1) (step^[n + 1] x0).1 s.trust := by
  have hq : (n + 1) * q ≤ K * q := Nat.mul_le_mul_right _ hn
  have hq' : (n + 1) * q = n * q + q := by ring
  cases n with
  | zero =>
    cases h
    obtain ⟨b1, hi1, hstart⟩ := H.start
    rw [hi] at hi1
    cases hi1
    obtain ⟨s, hs, ho⟩ := H.first _ _ _ _ (zeros (matsOf l f).numSources) hstart (by omega)
    exact ⟨s, hs, ho.topNear (by omega) hK (by omega)⟩
  | succ n =>
    have e : (n + 1) * w ≤ (K - 1) * w := Nat.mul_le_mul_right _ (by omega)
    have e' : (n + 1) * w = n * w + w := by ring
    have ho := H.out hi h (by omega) (by simp only [Nat.add_sub_cancel]; omega)
    obtain ⟨s, hs, ho'⟩ := H.next _ _ _ _ t ho.in (by simp only [Nat.add_sub_cancel]; omega)
    refine ⟨s, hs, ?_⟩
    rw [Function.iterate_succ_apply']
    exact ho'.topNear (by omega) hK (by omega)

variable {m : Measure} {th : FP (.binary64 ω)} {lim : Int}

theorem conv_compare {st st' : IterState (FP (.binary64 ω))} {v v' : Vec (FP (.binary64 ω))}
    (h : (IterCfg.conv (some m) th lim).compare st v v' = .ok st') :
    ∃ y, getDistance (some m) v v' = .ok y ∧ st'.dist = some y := by
  simp only [IterCfg.compare, bind, Except.bind] at h
  split at h
  · cases h
  · rename_i y hy
    cases h
    exact ⟨y, hy, rfl⟩

/-- What the iterator remembers after `n` iterations. -/
theorem dist (H : Tracks c l f x0 Q step q w W) (hl : l ≠ []) (hS : (allSources l).card ≤ 2 ^ 40)
    (hc : c.iterator = .conv (some m) th lim) {b0 : Vec (FP (.binary64 ω))}
    (hi : c.init (matsOf l f) = .ok (zeros (matsOf l f).numSources, b0)) {n K : Nat} {st' t b L}
    (h : Steps c.iterator (c.kind.body (matsOf l f)) {} (zeros (matsOf l f).numSources) b0 (n + 1) st' t b L) (hn : n + 1 ≤ K)
    (hr : 53 + W + (K - 1) * w ≤ 1022) (hK : K * q + 1 ≤ 2 ^ 51) :
    ∃ y, st'.dist = some (FP.fin y) ∧ |y - distance m (allSources l) (step^[n] x0).1 (step^[n + 1] x0).1| ≤ blur m l (K * q + 1) := by
  obtain ⟨st2, t2, b2, L2, L3, h1, h2, -⟩ := h.split n (by omega)
  rw [Nat.add_sub_cancel_left] at h2
  cases h2 with
  | cons hf hb hcmp hs =>
    cases hs
    rename_i s
    have n1 := H.near hi h1 (by omega : n ≤ K) hr hK
    have n2 := H.near hi h hn hr hK
    obtain ⟨y, hy, herr⟩ := n1.distance hl hS m n2
    rw [hc] at hcmp
    obtain ⟨y', hy', hd⟩ := conv_compare hcmp
    refine ⟨y, ?_, herr⟩
    rw [hd]
    have : getDistance (some m) t2 s.trust = .ok y' := by
      rcases H.cmp _ _ _ hb with ⟨e1, e2⟩ | ⟨e1, e2⟩
      · rw [e1, e2] at hy'; exact hy'
      · rw [e1, e2, C85_symmetric] at hy'; exact hy'
    rw [hy] at this
    cases this
    rfl

/-- Where a run may end. -/
theorem ended (H : Tracks c l f x0 Q step q w W) (hl : l ≠ []) (hS : (allSources l).card ≤ 2 ^ 40)
    {th : ℝ} (hc : c.iterator = .conv (some m) (FP.fin th) lim) {fuel : Nat} {st : IterState (FP (.binary64 ω))} {r}
    (h : c.exec (matsOf l f) fuel st = .ok r) {K : Nat} (hn : r.iterations ≤ K)
    (hr : 53 + W + (K - 1) * w ≤ 1022) (hK : K * q + 1 ≤ 2 ^ 51) {ε : ℝ}
    (hε : ε = blur m l (K * q + 1)) :
    ∃ k, r.iterations = k + 1 ∧ distance m (allSources l) (step^[k] x0).1 (step^[k + 1] x0).1 < th + ε ∧
      ∀ j < k, th - ε ≤ distance m (allSources l) (step^[j] x0).1 (step^[j + 1] x0).1 := by
  obtain ⟨h0, t0, b0, n, st', t, b, L, hi, -, hs, hst, hf, hit, -⟩ := (exec_ok_iff _ _ _ _ _).1 h
  obtain ⟨b1, hi1, -⟩ := H.start
  have hi2 := hi
  rw [hi1] at hi2
  cases hi2
  rw [hit] at hn
  have hfin : c.iterator.finished st' = .ok true := by
    rcases hst with h | ⟨-, h⟩
    · exact h
    · exact absurd h (H.goes _ _)
  cases n with
  | zero =>
    cases hs
    rw [hc] at hfin
    simp only [IterCfg.finished, IterState.below, Bool.false_eq_true, ↓reduceIte] at hfin
    split at hfin <;> cases hfin
  | succ k =>
    refine ⟨k, hit, ?_, fun j hj => ?_⟩
    · obtain ⟨y, hd, herr⟩ := H.dist hl hS hc hi1 hs hn hr hK
      rw [← hε] at herr
      rw [hc] at hfin
      simp only [IterCfg.finished, IterState.below, hd, FP.lt_fin] at hfin
      split at hfin
      · rename_i hlt
        have := of_decide_eq_true hlt
        linarith [(abs_le.1 herr).1]
      · split at hfin <;> cases hfin
    · obtain ⟨st2, t2, b2, L2, L3, h1, h2, -⟩ := hs.split (j + 1) (by omega)
      obtain ⟨y, hd, herr⟩ := H.dist hl hS hc hi1 h1 (by omega : j + 1 ≤ K) hr hK
      rw [← hε] at herr
      obtain ⟨i, hi'⟩ : ∃ i, k + 1 - (j + 1) = i + 1 := ⟨k - j - 1, by omega⟩
      rw [hi'] at h2
      cases h2 with
      | cons hf' hb hcmp hs' =>
        rw [hc] at hf'
        simp only [IterCfg.finished, IterState.below, hd, FP.lt_fin] at hf'
        split at hf'
        · cases hf'
        · rename_i hlt
          have := of_decide_eq_false (Bool.eq_false_iff.2 hlt)
          linarith [(abs_le.1 herr).2]

/-- Where a run does end. -/
theorem ends (H : Tracks c l f x0 Q step q w W) (hl : l ≠ []) (hS : (allSources l).card ≤ 2 ^ 40)
    {th : ℝ} (hc : c.iterator = .conv (some m) (FP.fin th) lim) {k : Nat}
    (hr : 53 + W + k * w ≤ 1022) (hK : (k + 1) * q + 1 ≤ 2 ^ 51) {ε : ℝ}
    (hε : ε = blur m l ((k + 1) * q + 1))
    (hd : distance m (allSources l) (step^[k] x0).1 (step^[k + 1] x0).1 < th - ε) (hlim : (k : Int) < lim)
    {fuel : Nat} (hfuel : k + 1 < fuel) (st : IterState (FP (.binary64 ω))) :
    ∃ r, c.exec (matsOf l f) fuel st = .ok r ∧ r.iterations ≤ k + 1 := by
  obtain ⟨b0, hi, -⟩ := H.start
  have h0 : (matsOf l f).numClaims ≠ 0 := fun e => hl ((numClaims_zero l f).1 e)
  have done : ∀ n st' t b L, Steps c.iterator (c.kind.body (matsOf l f)) {} (zeros (matsOf l f).numSources) b0 n st' t b L →
      n ≤ k + 1 → c.iterator.finished st' = .ok true → ∃ r, c.exec (matsOf l f) fuel st = .ok r ∧ r.iterations ≤ k + 1 := by
    intro n st' t b L hs hn hf
    refine ⟨⟨t, b, n, initLog c (zeros (matsOf l f).numSources) b0 ++ L⟩, (exec_ok_iff _ _ _ _ _).2 ?_, hn⟩
    exact ⟨h0, _, b0, n, st', t, b, L, hi, by omega, hs, .inl hf, H.fin t b, rfl, rfl⟩
  have prog : ∀ n ≤ k + 1, (∃ r, c.exec (matsOf l f) fuel st = .ok r ∧ r.iterations ≤ k + 1) ∨
      ∃ st' t b L, Steps c.iterator (c.kind.body (matsOf l f)) {} (zeros (matsOf l f).numSources) b0 n st' t b L := by
    intro n
    induction n with
    | zero => exact fun _ => .inr ⟨_, _, _, _, .refl _ _ _⟩
    | succ n ih =>
      intro hn
      rcases ih (by omega) with h | ⟨st', t, b, L, hs⟩
      · exact .inl h
      · cases hf : c.iterator.finished st' with
        | error e =>
          exfalso
          rw [hc] at hf
          have hcnt : st'.itCount = n := by have := hs.itCount; simpa using this
          simp only [IterCfg.finished, hcnt] at hf
          split at hf
          · cases hf
          · split at hf
            · omega
            · cases hf
        | ok B =>
          cases B with
          | true => exact .inl (done _ _ _ _ _ hs (by omega) hf)
          | false =>
            obtain ⟨s, hb, n2⟩ := H.body hi hs hn (by simpa using hr) hK
            have n1 := H.near hi hs (by omega : n ≤ k + 1) (by simpa using hr) hK
            obtain ⟨y, hy, -⟩ := n1.distance hl hS m n2
            have hcmp : getDistance (some m) s.cmp1 s.cmp2 = .ok (FP.fin y) := by
              rcases H.cmp _ _ _ hb with ⟨e1, e2⟩ | ⟨e1, e2⟩
              · rw [e1, e2, hy]
              · rw [e1, e2, C85_symmetric, hy]
            obtain ⟨st'', hst''⟩ : ∃ st'', c.iterator.compare st' s.cmp1 s.cmp2 = .ok st'' := by
              rw [hc]
              simp only [IterCfg.compare, bind, Except.bind, hcmp]
              exact ⟨_, rfl⟩
            exact .inr ⟨_, _, _, _, hs.append (.cons hf hb hst'' (.refl _ _ _))⟩
  rcases prog (k + 1) le_rfl with h | ⟨st', t, b, L, hs⟩
  · exact h
  · refine done _ _ _ _ _ hs le_rfl ?_
    obtain ⟨y, hy, herr⟩ := H.dist hl hS hc hi hs le_rfl (by simpa using hr) hK
    rw [← hε] at herr
    rw [hc]
    simp only [IterCfg.finished, IterState.below, hy, FP.lt_fin]
    rw [if_pos]
    exact decide_eq_true (by linarith [(abs_le.1 herr).2])

end Tracks

end TD
