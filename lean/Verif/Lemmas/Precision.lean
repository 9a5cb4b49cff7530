import Verif.Lemmas.Near
import Verif.Lemmas.Converge
import Verif.Props.Rounded
/-! Rounding errors of whole runs of Sums and AverageLog in binary64. -/

namespace TD
open Spec Double
attribute [-instance] instBEqProd
variable {ω : Platform}

theorem Acc.scale {p k M : Nat} {A : Type} {as : List A} {F G : A → ℝ} (h : Acc ω p k M as F G) {d : ℝ} (hd : 0 < d) :
    Acc ω p k M as (fun a => F a / d) G := by
  obtain ⟨h1, h2, c, hc, hn⟩ := h
  refine ⟨fun a ha => ⟨(h1 a ha).1, (h1 a ha).2.1, (h1 a ha).2.2.1, div_nonneg (h1 a ha).2.2.2 hd.le⟩, h2, c * d,
    by positivity, fun a ha => ?_⟩
  rw [show c * d * (F a / d) = c * F a by field_simp]
  exact hn a ha

theorem Acc.mono {p k M p' k' : Nat} {A : Type} {as : List A} {F G : A → ℝ} (h : Acc ω p k M as F G) (hp : p ≤ p')
    (hk : k ≤ k') : Acc ω p' k' M as F G := by
  obtain ⟨h1, h2, c, hc, hn⟩ := h
  refine ⟨fun a ha => ⟨(h1 a ha).1, (h1 a ha).2.1.mono hp, (h1 a ha).2.2⟩, h2, c, hc, fun a ha => ?_⟩
  exact (hn a ha).mono hk (mul_nonneg hc.le (h1 a ha).2.2.2) (h1 a ha).2.1.nonneg

/-- A positive computed score stands for a positive score. -/
theorem Acc.pos {p k M : Nat} {A : Type} {as : List A} {F G : A → ℝ} (h : Acc ω p k M as F G) {a : A} (ha : a ∈ as)
    (hG : 0 < G a) : 0 < F a := by
  obtain ⟨h1, h2, c, hc, hn⟩ := h
  rcases (h1 a ha).2.2.2.lt_or_eq with h | h
  · exact h
  · exact absurd ((hn a ha).eq_zero hG.le (by rw [← h, mul_zero])) hG.ne'

variable {S V X : Type} [DecidableEq S] [DecidableEq V] [DecidableEq X] (l : List (S × V × X))
  (f : Option (V → X → X → Option (FP (.binary64 ω))))

theorem filter_claims_toFinset (s : S) : ((claims l).filter fun c => decide ((s, c) ∈ recorded l)).toFinset = claimsOf l s := by
  ext c
  rw [List.mem_toFinset, List.mem_filter, mem_claimsOf l]
  exact ⟨fun h => by simpa using h.2, fun h => ⟨mem_claims_of_claimsOf l ((mem_claimsOf l).2 h), by simpa using h⟩⟩

theorem filter_sources_toFinset (c : V × X) :
    ((sources l).filter fun s => decide ((s, c) ∈ recorded l)).toFinset = sourcesOf l c := by
  ext s
  rw [List.mem_toFinset, List.mem_filter, mem_sourcesOf l]
  exact ⟨fun h => by simpa using h.2, fun h => ⟨mem_sources_of_sourcesOf l ((mem_sourcesOf l).2 h), by simpa using h⟩⟩

/-- `sc_mat * belief`. -/
theorem rows_acc {p k M a : Nat} {F G : V × X → ℝ} (h : Acc ω p k M (claims l) F G) (hp : p ≤ 1022)
    (ha : ∀ s, (claimsOf l s).card ≤ a) (hM : (claims l).length * M ≤ 2 ^ 53) :
    ∃ T : S → ℝ, (matsOf l f).sc.mulVec ((claims l).map fun c => FP.fin (G c)) = (sources l).map (fun s => FP.fin (T s)) ∧
      Acc ω p (k + a) ((claims l).length * M) (sources l) (sumTrust l F) T ∧
      ∀ s c, (s, c) ∈ recorded l → 0 < G c → 0 < T s := by
  obtain ⟨c, hc, hn⟩ := h.2.2
  have hsum : ∀ s, (((claims l).filter fun c => decide ((s, c) ∈ recorded l)).map F).sum = sumTrust l F s := fun s => by
    rw [← List.sum_toFinset F ((nodup_claims l).filter _), filter_claims_toFinset]; rfl
  have hlen : ∀ s, ((claims l).filter fun c => decide ((s, c) ∈ recorded l)).length ≤ a := fun s => by
    rw [← List.toFinset_card_of_nodup ((nodup_claims l).filter _), filter_claims_toFinset]; exact ha s
  have h1 : ∀ s, ∃ y, rowDot (claims l) (scL l s) (fun c => (FP.fin (G c) : FP (.binary64 ω))) = FP.fin y ∧
      Rep (.binary64 ω) y ∧ Away p y ∧ y ≤ ((claims l).length * M : Nat) ∧ Near (k + a) (c * sumTrust l F s) y ∧
      ∀ c ∈ claims l, (s, c) ∈ recorded l → 0 < G c → 0 < y := by
    intro s
    obtain ⟨y, h1, h2, h3, h4, h5, h6⟩ := h.row hp (fun c => (s, c) ∈ recorded l) (fun c _ => scL_fp l s c) (hlen s) hM hc hn
    rw [hsum] at h5
    exact ⟨y, h1, h2, h3, h4, h5, h6⟩
  choose T hT using h1
  have hpos : ∀ s c, (s, c) ∈ recorded l → 0 < G c → 0 < T s := fun s c hr hg =>
    (hT s).2.2.2.2.2 c (mem_claims_of_claimsOf l ((mem_claimsOf l).2 hr)) hr hg
  refine ⟨T, ?_, ⟨fun s _ => ⟨(hT s).2.1, (hT s).2.2.1, (hT s).2.2.2.1, ?_⟩, ?_, c, hc, fun s _ => (hT s).2.2.2.2.1⟩, hpos⟩
  · rw [sc_eq_ofRel, Mat.mulVec_ofRel]
    apply List.map_congr_left
    intro s _
    exact (hT s).1
  · exact Finset.sum_nonneg fun d hd => (h.1 d (mem_claims_of_claimsOf l hd)).2.2.2
  · obtain ⟨c0, hc0, hg0⟩ := h.2.1
    obtain ⟨s0, hs0⟩ := sourcesOf_nonempty l hc0
    exact ⟨s0, mem_sources_of_sourcesOf l hs0, hpos s0 c0 ((mem_sourcesOf l).1 hs0) hg0⟩

/-- `sc_mat.T * trust`. -/
theorem cols_acc {p k M b : Nat} {F G : S → ℝ} (h : Acc ω p k M (sources l) F G) (hp : p ≤ 1022)
    (hb : ∀ c, (sourcesOf l c).card ≤ b) (hM : (sources l).length * M ≤ 2 ^ 53) :
    ∃ B : V × X → ℝ, (matsOf l f).sc.T.mulVec ((sources l).map fun s => FP.fin (G s)) = (claims l).map (fun c => FP.fin (B c)) ∧
      Acc ω p (k + b) ((sources l).length * M) (claims l) (sumBelief l F) B ∧
      ∀ s c, (s, c) ∈ recorded l → 0 < G s → 0 < B c := by
  obtain ⟨c, hc, hn⟩ := h.2.2
  have hsum : ∀ c, (((sources l).filter fun s => decide ((s, c) ∈ recorded l)).map F).sum = sumBelief l F c := fun c => by
    rw [← List.sum_toFinset F ((nodup_sources l).filter _), filter_sources_toFinset]; rfl
  have hlen : ∀ c, ((sources l).filter fun s => decide ((s, c) ∈ recorded l)).length ≤ b := fun c => by
    rw [← List.toFinset_card_of_nodup ((nodup_sources l).filter _), filter_sources_toFinset]; exact hb c
  have h1 : ∀ d, ∃ y, rowDot (sources l) (fun s => scL l s d) (fun s => (FP.fin (G s) : FP (.binary64 ω))) = FP.fin y ∧
      Rep (.binary64 ω) y ∧ Away p y ∧ y ≤ ((sources l).length * M : Nat) ∧ Near (k + b) (c * sumBelief l F d) y ∧
      ∀ s ∈ sources l, (s, d) ∈ recorded l → 0 < G s → 0 < y := by
    intro d
    obtain ⟨y, h1, h2, h3, h4, h5, h6⟩ := h.row hp (fun s => (s, d) ∈ recorded l) (fun s _ => scL_fp l s d) (hlen d) hM hc hn
    rw [hsum] at h5
    exact ⟨y, h1, h2, h3, h4, h5, h6⟩
  choose B hB using h1
  have hpos : ∀ s c, (s, c) ∈ recorded l → 0 < G s → 0 < B c := fun s c hr hg =>
    (hB c).2.2.2.2.2 s (mem_sources_of_sourcesOf l ((mem_sourcesOf l).2 hr)) hr hg
  refine ⟨B, ?_, ⟨fun d _ => ⟨(hB d).2.1, (hB d).2.2.1, (hB d).2.2.2.1, ?_⟩, ?_, c, hc, fun d _ => (hB d).2.2.2.2.1⟩, hpos⟩
  · rw [scT_eq_ofRel, Mat.mulVec_ofRel]
    apply List.map_congr_left
    intro c _
    exact (hB c).1
  · exact Finset.sum_nonneg fun d hd => (h.1 d (mem_sources_of_sourcesOf l hd)).2.2.2
  · obtain ⟨s0, hs0, hg0⟩ := h.2.1
    obtain ⟨c0, hc0⟩ := claimsOf_nonempty l hs0
    exact ⟨c0, mem_claims_of_claimsOf l hc0, hpos s0 c0 ((mem_claimsOf l).1 hc0) hg0⟩

/-- Normalised scores with the largest one 1, with rounding (`G`) and without (`F`). -/
def Unit1 (ω : Platform) (p k : Nat) {A : Type} (as : List A) (F G : A → ℝ) : Prop :=
  Acc ω p k 1 as F G ∧ (∃ a ∈ as, G a = 1) ∧ (∃ a ∈ as, F a = 1) ∧ ∀ a ∈ as, F a ≤ 1

theorem Acc.unit {p k M w : Nat} {A : Type} [DecidableEq A] {as : List A} {F G : A → ℝ} (h : Acc ω p k M as F G)
    (hM : M ≤ 2 ^ w) (hp : p + w ≤ 1022) :
    ∃ H : A → ℝ, TD.normalise (as.map fun a => (FP.fin (G a) : FP (.binary64 ω))) = .ok (as.map fun a => FP.fin (H a)) ∧
      Unit1 ω (p + w) (k + 1) as (scaled as.toFinset F) H ∧ ∀ a ∈ as, 0 < G a → 0 < H a := by
  obtain ⟨H, h1, h2, h3⟩ := h.normalise hM hp
  obtain ⟨a0, ha0, hg0⟩ := h.2.1
  have hF0 := h.pos ha0 hg0
  have hne : as.toFinset.Nonempty := ⟨a0, List.mem_toFinset.2 ha0⟩
  have htop : 0 < top as.toFinset F := lt_of_lt_of_le hF0 (le_top (List.mem_toFinset.2 ha0))
  refine ⟨H, h1, ⟨h2.scale htop, h3, ?_, fun a ha => ?_⟩, fun a ha hg => ?_⟩
  · obtain ⟨m, hm, e⟩ := top_mem hne (f := F)
    refine ⟨m, List.mem_toFinset.1 hm, ?_⟩
    unfold scaled
    rw [← e] at htop ⊢
    rw [div_self htop.ne']
  · unfold scaled
    rw [div_le_one htop]
    exact le_top (List.mem_toFinset.2 ha)
  · obtain ⟨c, hc, hn⟩ := h2.2.2
    have := (hn a ha).1
    have h4 : 0 < c * F a * (1 - uu) ^ (k + 1) := mul_pos (mul_pos hc (h.pos ha hg)) (pow_sub_pos _)
    linarith

/-- The scores after an iteration: with rounding (`t`, `b`) and without (`x`); `Q` holds of a source with a claim
believed at all. -/
def AccOut (ω : Platform) (Q : S → Prop) (p k : Nat) (x : Scores S V X) (t b : Vec (FP (.binary64 ω))) : Prop :=
  ∃ T B, t = (sources l).map (fun s => FP.fin (T s)) ∧ b = (claims l).map (fun c => FP.fin (B c)) ∧
    Unit1 ω p k (sources l) x.1 T ∧ Unit1 ω p k (claims l) x.2 B ∧ ∃ s c, (s, c) ∈ recorded l ∧ Q s ∧ 0 < B c

/-- The scores before an iteration. -/
def AccIn (ω : Platform) (Q : S → Prop) (p k M : Nat) (x : Scores S V X) (b : Vec (FP (.binary64 ω))) : Prop :=
  ∃ B, b = (claims l).map (fun c => FP.fin (B c)) ∧ Acc ω p k M (claims l) x.2 B ∧
    ∃ s c, (s, c) ∈ recorded l ∧ Q s ∧ 0 < B c

theorem AccOut.in {Q : S → Prop} {p k : Nat} {x : Scores S V X} {t b : Vec (FP (.binary64 ω))} (h : AccOut l ω Q p k x t b) :
    AccIn l ω Q p k 1 x b := by
  obtain ⟨T, B, -, hb, -, hB, hq⟩ := h
  exact ⟨B, hb, hB.1, hq⟩

theorem Unit1.mono {p k p' k' : Nat} {A : Type} {as : List A} {F G : A → ℝ} (h : Unit1 ω p k as F G) (hp : p ≤ p')
    (hk : k ≤ k') : Unit1 ω p' k' as F G := ⟨h.1.mono hp hk, h.2⟩

/-- One iteration of Sums. -/
theorem sums_out {p k M a b W : Nat} {x : Scores S V X} {bl : Vec (FP (.binary64 ω))} (t : Vec (FP (.binary64 ω)))
    (h : AccIn l ω (fun _ => True) p k M x bl) (ha : ∀ s, (claimsOf l s).card ≤ a) (hb : ∀ c, (sourcesOf l c).card ≤ b)
    (hM : (sources l).length * ((claims l).length * M) ≤ 2 ^ 53) (hM' : (claims l).length * M ≤ 2 ^ 53)
    (hW : (sources l).length * ((claims l).length * M) ≤ 2 ^ W) (hW' : (claims l).length * M ≤ 2 ^ W)
    (hp : p + W ≤ 1022) :
    ∃ s, sumsBody (matsOf l f) t bl = .ok (some s) ∧ AccOut l ω (fun _ => True) (p + W) (k + (a + b + 1)) (sumsStep l x) s.trust s.belief := by
  obtain ⟨B, rfl, hB, -, -, -⟩ := h
  obtain ⟨T, e1, hT, hTp⟩ := rows_acc l f hB (by omega) ha hM'
  obtain ⟨B', e2, hB', hBp⟩ := cols_acc l f hT (by omega) hb hM
  obtain ⟨T1, n1, hT1, -⟩ := hT.unit hW' hp
  obtain ⟨B1, m1, hB1, hB1p⟩ := hB'.unit hW hp
  refine ⟨⟨t, (sources l).map fun s => FP.fin (T1 s), (sources l).map fun s => FP.fin (T1 s),
    (claims l).map fun c => FP.fin (B1 c)⟩, ?_, T1, B1, rfl, rfl, ?_, ?_, ?_⟩
  · unfold sumsBody
    rw [e1]
    dsimp only
    rw [e2, n1, m1]
    rfl
  · rw [sources_toFinset] at hT1
    exact hT1.mono le_rfl (by omega)
  · rw [claims_toFinset] at hB1
    exact hB1.mono le_rfl (by omega)
  · obtain ⟨c0, hc0, hg0⟩ := hB'.2.1
    obtain ⟨s0, hs0⟩ := sourcesOf_nonempty l hc0
    exact ⟨s0, c0, (mem_sourcesOf l).1 hs0, trivial, hB1p c0 hc0 hg0⟩

/-- The weight of a source with `n` claims. -/
theorem weight_near {n w : Nat} (h1 : 1 ≤ n) (hn : n ≤ 2 ^ w) (hw : w ≤ 53) :
    ∃ y, (Arith.log (FP.fin n : FP (.binary64 ω)) /. FP.fin n) = FP.fin y ∧ Near 3 (Real.log n / n) y ∧
      Away (w + 1) y ∧ y ≤ 1 ∧ (2 ≤ n → 0 < y) := by
  have hn1 : (1 : ℝ) ≤ n := by exact_mod_cast h1
  have hn0 : (0 : ℝ) < n := by linarith
  have hn53 : n ≤ 2 ^ 53 := hn.trans (Nat.pow_le_pow_right two_pos hw)
  have hlogn : Real.log n ≤ n := (Real.log_le_sub_one_of_pos (by linarith)).trans (by linarith)
  have haw : Away 1 (Real.log n) := by
    rcases h1.lt_or_eq with h2 | h2
    · refine .inr ?_
      have hn2 : (2 : ℝ) ≤ n := by exact_mod_cast h2
      refine le_trans ?_ (Real.one_sub_inv_le_log_of_pos hn0)
      have : (n : ℝ)⁻¹ ≤ 2⁻¹ := inv_anti₀ two_pos hn2
      rw [Nat.cast_one, zpow_neg, zpow_one]
      norm_num at this ⊢
      linarith
    · exact .inl (by rw [← h2]; simp)
  obtain ⟨q, hq, qr, qn, qa, qb⟩ := near_lib (ω := ω) (by norm_num) haw (rep_nat_bound hn53).1 hlogn
    (by
      have h1 : (n : ℝ) ≤ 2 ^ 53 := by exact_mod_cast hn53
      have h2 : (2 : ℝ) * 2 ^ 53 ≤ big := by
        rw [big, ← pow_succ', ← zpow_natCast]
        exact zpow_le_zpow_right₀ one_le_two (by norm_num)
      linarith) (ω.logErr_le n)
  have e : (Arith.log (FP.fin n : FP (.binary64 ω))) = FP.fin q := by
    show FNum.log (.binary64 ω) (.fin n) = _
    simp only [FNum.log]
    rw [if_neg (by linarith), if_neg (by linarith)]
    exact hq
  have haw2 : Away (w + 1) (q / n) := by
    rcases qa with h | h
    · exact .inl (by rw [h, zero_div])
    · refine .inr ?_
      rw [le_div_iff₀ hn0]
      refine le_trans ?_ h
      have hnw : (n : ℝ) ≤ 2 ^ w := by exact_mod_cast hn
      have : (2 : ℝ) ^ (-((1 : Nat) : ℤ)) = 2 ^ (-((w + 1 : Nat) : ℤ)) * 2 ^ w := by
        rw [← zpow_natCast, ← zpow_add₀ two_ne_zero]
        congr 1; push_cast; ring
      rw [this]
      exact mul_le_mul_of_nonneg_left hnw (two_zpow_pos _).le
  obtain ⟨y, hy, -, yn, ya, yb⟩ := near_rnd (ω := ω) (by omega) haw2 rep_one ((div_le_one hn0).2 qb)
    (by rw [big]; exact one_le_zpow₀ one_le_two (by norm_num))
  have hnear : Near 3 (Real.log n / n) y := by
    have := qn.smul (c := 1 / (n : ℝ)) (by positivity)
    rw [show 1 / (n : ℝ) * Real.log n = Real.log n / n by ring, show 1 / (n : ℝ) * q = q / n by ring] at this
    exact this.trans yn
  refine ⟨y, ?_, hnear, ya, yb, fun h2 => ?_⟩
  · rw [e, FP.div_fin _ (by linarith)]
    exact hy
  · have hn2 : (1 : ℝ) < n := by exact_mod_cast h2
    have hl := Real.log_pos hn2
    exact lt_of_lt_of_le (mul_pos (div_pos hl hn0) (pow_sub_pos 3)) hnear.1

theorem Away.mul {p q : Nat} {x y : ℝ} (h : Away p x) (h' : Away q y) : Away (p + q) (x * y) := by
  rcases h with rfl | h
  · exact .inl (zero_mul _)
  rcases h' with rfl | h'
  · exact .inl (mul_zero _)
  refine .inr ?_
  have : (2 : ℝ) ^ (-((p + q : Nat) : ℤ)) = 2 ^ (-(p : ℤ)) * 2 ^ (-(q : ℤ)) := by
    rw [← zpow_add₀ two_ne_zero]
    congr 1; push_cast; ring
  rw [this]
  exact mul_le_mul h h' (two_zpow_pos _).le ((two_zpow_pos _).le.trans h)

/-- One iteration of AverageLog. -/
theorem avlog_out {p k M a b W w : Nat} {x : Scores S V X} {bl : Vec (FP (.binary64 ω))} (t : Vec (FP (.binary64 ω)))
    (h : AccIn l ω (Multi l) p k M x bl) (ha : ∀ s, (claimsOf l s).card ≤ a) (hb : ∀ c, (sourcesOf l c).card ≤ b)
    (hM : (sources l).length * ((claims l).length * M) ≤ 2 ^ 53) (hM' : (claims l).length * M ≤ 2 ^ 53)
    (hC : (claims l).length ≤ 2 ^ w) (hw : w ≤ 53)
    (hW : (sources l).length * ((claims l).length * M) ≤ 2 ^ W) (hW' : (claims l).length * M ≤ 2 ^ W)
    (hp : p + (W + w + 1) ≤ 1022) :
    ∃ s, avlogBody (matsOf l f) t bl = .ok (some s) ∧ AccOut l ω (Multi l) (p + (W + w + 1)) (k + (a + b + 5)) (avlogStep l x) s.trust s.belief := by
  obtain ⟨B, rfl, hB, s0, c0, hrec, hms, hpos0⟩ := h
  have hs0 : s0 ∈ sources l := mem_sources_of_sourcesOf l ((mem_sourcesOf l).2 hrec)
  have hc0 : c0 ∈ claims l := mem_claims_of_claimsOf l ((mem_claimsOf l).2 hrec)
  have hC53 : (claims l).length ≤ 2 ^ 53 := hC.trans (Nat.pow_le_pow_right two_pos hw)
  obtain ⟨R, e1, hR, hRp⟩ := rows_acc l f hB (by omega) ha hM'
  have h2 : ∀ s, ∃ y, s ∈ sources l →
      (Arith.log (FP.fin ((claimsOf l s).card : ℝ) : FP (.binary64 ω)) /. FP.fin ((claimsOf l s).card : ℝ)) = FP.fin y ∧
      Near 3 (Real.log (nClaims l s) / nClaims l s) y ∧ Away (w + 1) y ∧ y ≤ 1 ∧ (2 ≤ (claimsOf l s).card → 0 < y) := by
    intro s
    by_cases hs : s ∈ sources l
    · obtain ⟨y, hy⟩ := weight_near (ω := ω) (n := (claimsOf l s).card) (claimsOf_nonempty l hs).card_pos
        ((card_claimsOf_le l s).trans hC) hw
      exact ⟨y, fun _ => hy⟩
    · exact ⟨0, fun h => absurd h hs⟩
  choose wt hwt using h2
  obtain ⟨c, hc, hn⟩ := hR.2.2
  have hwn : ∀ s ∈ sources l, 0 ≤ Real.log (nClaims l s) / nClaims l s := by
    intro s hs
    have : (1 : ℝ) ≤ nClaims l s := by
      unfold nClaims
      exact_mod_cast (claimsOf_nonempty l hs).card_pos
    exact div_nonneg (Real.log_nonneg this) (by linarith)
  have h3 : ∀ s, ∃ y, s ∈ sources l → (FP.fin (wt s) *. FP.fin (R s) : FP (.binary64 ω)) = FP.fin y ∧
      Rep (.binary64 ω) y ∧ Away (p + (w + 1)) y ∧ y ≤ ((claims l).length * M : Nat) ∧
      Near (k + a + 4) (c * (Real.log (nClaims l s) / nClaims l s * sumTrust l x.2 s)) y ∧
      (2 ≤ (claimsOf l s).card → 0 < R s → 0 < y) := by
    intro s
    by_cases hs : s ∈ sources l
    swap
    · exact ⟨0, fun h => absurd h hs⟩
    obtain ⟨-, wn, wa, w1, wp⟩ := hwt s hs
    obtain ⟨rr, ra, rb, r0⟩ := hR.1 s hs
    have hle : wt s * R s ≤ ((claims l).length * M : Nat) :=
      le_trans (mul_le_of_le_one_left ra.nonneg w1) rb
    have haw : Away (p + (w + 1)) (wt s * R s) := by
      rw [mul_comm]
      exact ra.mul wa
    obtain ⟨y, hy, yr, yn, ya, yb⟩ := near_rnd (ω := ω) (by omega) haw (rep_nat_bound hM').1 hle (rep_nat_bound (ω := ω) hM').2
    have hprod : Near (3 + (k + a)) (Real.log (nClaims l s) / nClaims l s * (c * sumTrust l x.2 s)) (wt s * R s) :=
      wn.mul (hn s hs) (hwn s hs) ra.nonneg
    refine ⟨y, fun _ => ⟨?_, yr, ya, yb, ?_, fun hc2 hr => ?_⟩⟩
    · rw [FP.mul_fin]; exact hy
    · have := hprod.trans yn
      rw [show Real.log (nClaims l s) / nClaims l s * (c * sumTrust l x.2 s) =
        c * (Real.log (nClaims l s) / nClaims l s * sumTrust l x.2 s) by ring,
        show 3 + (k + a) + 1 = k + a + 4 by omega] at this
      exact this
    · exact lt_of_lt_of_le (mul_pos (mul_pos (wp hc2) hr) (pow_sub_pos 1)) yn.1
  choose T hT using h3
  have hRs0 : 0 < R s0 := hRp s0 c0 hrec hpos0
  have hTs0 : 0 < T s0 := (hT s0 hs0).2.2.2.2.2 hms hRs0
  have hTacc : Acc ω (p + (w + 1)) (k + a + 4) ((claims l).length * M) (sources l)
      (fun s => Real.log (nClaims l s) / nClaims l s * sumTrust l x.2 s) T := by
    refine ⟨fun s hs => ⟨(hT s hs).2.1, (hT s hs).2.2.1, (hT s hs).2.2.2.1, mul_nonneg (hwn s hs) (hR.1 s hs).2.2.2⟩,
      ⟨s0, hs0, hTs0⟩, c, hc, fun s hs => (hT s hs).2.2.2.2.1⟩
  have e2 : vzip Arith.mul (avlogWeights (matsOf l f)) ((matsOf l f).sc.mulVec ((claims l).map fun c => FP.fin (B c))) =
      (sources l).map fun s => FP.fin (T s) := by
    rw [e1]
    unfold avlogWeights vzip
    rw [claimCounts_fp l f C31_binary64 hC53, List.map_map, List.zipWith_map, List.zipWith_self]
    apply List.map_congr_left
    intro s hs
    simp only [Function.comp_apply]
    rw [(hwt s hs).1]
    exact (hT s hs).1
  obtain ⟨B', e3, hB', hBp⟩ := cols_acc l f hTacc (by omega) hb hM
  obtain ⟨T1, n1, hT1, -⟩ := hTacc.unit hW' (by omega)
  obtain ⟨B1, m1, hB1, hB1p⟩ := hB'.unit hW (by omega)
  refine ⟨⟨(sources l).map fun s => FP.fin (T1 s), t, (sources l).map fun s => FP.fin (T1 s),
    (claims l).map fun c => FP.fin (B1 c)⟩, ?_, T1, B1, rfl, rfl, ?_, ?_, s0, c0, hrec, hms, ?_⟩
  · unfold avlogBody
    rw [e2]
    dsimp only
    rw [e3, n1, m1]
    rfl
  · rw [sources_toFinset] at hT1
    exact hT1.mono (by omega) (by omega)
  · rw [claims_toFinset] at hB1
    exact hB1.mono (by omega) (by omega)
  · exact hB1p c0 hc0 (hBp s0 c0 hrec hTs0)

/-- Whole runs: `W` is the loss of range in the first iteration, `w` in the others, `q` the roundings of an iteration. -/
theorem steps_out {Q : S → Prop} {body : Vec (FP (.binary64 ω)) → Vec (FP (.binary64 ω)) → Except PyErr (Option (Step (FP (.binary64 ω))))}
    {step : Scores S V X → Scores S V X} {q w : Nat}
    (hbody : ∀ p k x bl t, AccIn l ω Q p k 1 x bl → p + w ≤ 1022 →
      ∃ s, body t bl = .ok (some s) ∧ AccOut l ω Q (p + w) (k + q) (step x) s.trust s.belief)
    {it : IterCfg (FP (.binary64 ω))} {st : IterState (FP (.binary64 ω))} {t b : Vec (FP (.binary64 ω))} {n : Nat} {st' t' b' L}
    (h : Steps it body st t b n st' t' b' L) {p k W M : Nat} {x : Scores S V X} (hin : AccIn l ω Q p k M x b)
    (hfirst : ∀ t, p + W ≤ 1022 →
      ∃ s, body t b = .ok (some s) ∧ AccOut l ω Q (p + W) (k + q) (step x) s.trust s.belief)
    :
    (1 ≤ n → p + W + (n - 1) * w ≤ 1022 → AccOut l ω Q (p + W + (n - 1) * w) (k + n * q) (step^[n] x) t' b') ∧
      ∀ i e, L[i]? = some e → p + W + i * w ≤ 1022 →
        AccOut l ω Q (p + W + i * w) (k + (i + 1) * q) (step^[i + 1] x) e.trust e.belief := by
  induction h generalizing p k W M x with
  | refl => exact ⟨fun h => absurd h (by omega), by simp⟩
  | @cons st t b s st' n st'' t'' b'' L hfin hb hcmp hrest ih =>
    simp only [Nat.add_sub_cancel]
    by_cases hpW : p + W ≤ 1022
    swap
    · exact ⟨fun _ h => by omega, fun i e _ h => by omega⟩
    obtain ⟨s', hs', ho⟩ := hfirst t hpW
    rw [hs'] at hb
    cases hb
    cases n with
    | zero =>
      cases hrest
      refine ⟨fun _ _ => by simpa using ho, fun i e he _ => ?_⟩
      cases i with
      | zero => cases he; simpa using ho
      | succ i => simp at he
    | succ n =>
      obtain ⟨h1, h2⟩ := ih (p := p + W) (k := k + q) (W := w) (M := 1) (x := step x) ho.in
        (fun t hw => hbody _ _ _ _ t ho.in hw)
      refine ⟨fun _ hr => ?_, fun i e he hr => ?_⟩
      · have := h1 (by omega) (by
          simp only [Nat.add_sub_cancel]
          have : (n + 1) * w = w + n * w := by ring
          omega)
        simp only [Nat.add_sub_cancel] at this ⊢
        rw [show p + W + w + n * w = p + W + (n + 1) * w by ring,
          show k + q + (n + 1) * q = k + (n + 1 + 1) * q by ring] at this
        rw [Function.iterate_succ_apply]
        exact this
      · cases i with
        | zero => cases he; simpa using ho
        | succ i =>
          have := h2 i e (by simpa using he) (by
            have : (i + 1) * w = w + i * w := by ring
            omega)
          rw [show p + W + w + i * w = p + W + (i + 1) * w by ring,
            show k + q + (i + 1) * q = k + (i + 1 + 1) * q by ring] at this
          rw [Function.iterate_succ_apply]
          exact this

end TD
