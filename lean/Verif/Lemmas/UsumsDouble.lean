import Verif.Lemmas.InvestPrecision
import Verif.Lemmas.Unbounded
import Verif.Props.Coherence
import Verif.Spec.Separate
/-! Rounding errors of UnboundedSums in binary64, and the rankings of the computed scores. -/

namespace TD
open Spec Double
attribute [-instance] instBEqProd
variable {ω : Platform}

/-- Numbers added one after the other. -/
theorem ok_foldl_pow {β : Type} {p q k n w : Nat} (hp : p ≤ 1022) (hw : w ≤ 53) (hq : q + w ≤ 970) {F G : β → ℝ} (L : List β)
    (hlen : L.length ≤ 2 ^ w) (hn : L.length ≤ n) (hne : L ≠ []) (h : ∀ b ∈ L, Ok ω p q k (F b) (G b)) :
    ∃ y, L.foldl (fun acc b => acc +. (FP.fin (G b) : FP (.binary64 ω))) (FP.fin 0) = FP.fin y ∧
      Ok ω p (q + w) (k + n) (L.map F).sum y ∧ ∀ b ∈ L, G b ≤ y := by
  have hrep : ∀ j : Nat, j ≤ L.length → Rep (.binary64 ω) (j * 2 ^ (q : ℤ)) ∧ (j : ℝ) * 2 ^ (q : ℤ) ≤ 2 ^ ((q + w : Nat) : ℤ) := by
    intro j hj
    have h20 := hj.trans hlen
    refine ⟨rep64_mul (h20.trans (Nat.pow_le_pow_right two_pos hw)) (by omega) (by omega), ?_⟩
    have : (j : ℝ) ≤ 2 ^ (w : ℤ) := by exact_mod_cast h20
    calc (j : ℝ) * 2 ^ (q : ℤ) ≤ 2 ^ (w : ℤ) * 2 ^ (q : ℤ) := mul_le_mul_of_nonneg_right this (p2_pos _).le
      _ = _ := by rw [p2_add]; congr 1; push_cast; ring
  have hbig : ∀ j : Nat, j ≤ L.length → (j : ℝ) * 2 ^ (q : ℤ) ≤ big := fun j hj => (hrep j hj).2.trans (by
    rw [big]; exact p2_le (by omega))
  have key : ∀ (L' : List β) (j : Nat) (A a : ℝ), j + L'.length = L.length → (∀ b ∈ L', b ∈ L) → Rep (.binary64 ω) a →
      Away p a → a ≤ j * 2 ^ (q : ℤ) → Near (k + j) A a → 0 ≤ A →
      ∃ y, L'.foldl (fun acc b => acc +. (FP.fin (G b) : FP (.binary64 ω))) (FP.fin a) = FP.fin y ∧
        Rep (.binary64 ω) y ∧ Away p y ∧ y ≤ L.length * 2 ^ (q : ℤ) ∧ Near (k + L.length) (A + (L'.map F).sum) y ∧
        a ≤ y ∧ ∀ b ∈ L', G b ≤ y := by
    intro L'
    induction L' with
    | nil =>
      intro j A a hj _ ar aw ab an _
      simp only [List.length_nil, add_zero] at hj
      subst hj
      exact ⟨a, rfl, ar, aw, ab, by simpa using an, le_rfl, by simp⟩
    | cons b L' ih =>
      intro j A a hj hL ar aw ab an hA
      simp only [List.length_cons] at hj
      have hb := h b (hL b (by simp))
      have hj1 : j + 1 ≤ L.length := by omega
      have hle : a + G b ≤ (j + 1 : Nat) * 2 ^ (q : ℤ) := by
        have := hb.2.2.1
        push_cast
        linarith
      obtain ⟨y, hy, yr, yn, yw, yb⟩ := near_rnd (ω := ω) hp (aw.add (.inr hb.2.1)) (hrep _ hj1).1 hle (hbig _ hj1)
      obtain ⟨y1, hy1, -, g1, -⟩ := rnd_between (R := .binary64 ω) hb.1 (hrep _ hj1).1
        (by linarith [aw.nonneg] : G b ≤ a + G b) hle
      obtain rfl : y = y1 := by rw [hy] at hy1; injection hy1
      obtain ⟨y2, hy2, -, g2, -⟩ := rnd_between (R := .binary64 ω) ar (hrep _ hj1).1
        (by linarith [hb.pos] : a ≤ a + G b) hle
      obtain rfl : y = y2 := by rw [hy] at hy2; injection hy2
      have hn1 : Near (k + (j + 1)) (A + F b) y := by
        have h1 : Near (k + j) (F b) (G b) := hb.2.2.2.1.mono (by omega) hb.2.2.2.2.le hb.pos.le
        exact (an.add h1).trans yn
      obtain ⟨z, h1, h2, h3, h4, h5, h6, h7⟩ := ih (j + 1) (A + F b) y (by omega) (fun c hc => hL c (by simp [hc])) yr yw yb
        hn1 (by linarith [hb.2.2.2.2])
      refine ⟨z, ?_, h2, h3, h4, ?_, g2.trans h6, fun c hc => ?_⟩
      · rw [List.foldl_cons, FP.add_fin]
        exact (congrArg (fun q => List.foldl _ q L') hy).trans h1
      · rw [List.map_cons, List.sum_cons, ← add_assoc]; exact h5
      · rcases List.mem_cons.1 hc with rfl | hc
        · exact g1.trans h6
        · exact h7 c hc
  obtain ⟨y, h1, h2, -, h4, h5, -, h7⟩ := key L 0 0 0 (by omega) (fun _ h => h) rep_zero (.inl rfl) (by simp)
    (by simp [Near]) le_rfl
  obtain ⟨b0, hb0⟩ := List.exists_mem_of_ne_nil _ hne
  have hlow := (h b0 hb0).2.1.trans (h7 b0 hb0)
  have hsum : 0 < (L.map F).sum := by
    have h0 : ∀ x ∈ L.map F, 0 ≤ x := by
      intro x hx
      obtain ⟨b, hb, rfl⟩ := List.mem_map.1 hx
      exact (h b hb).2.2.2.2.le
    exact lt_of_lt_of_le (h b0 hb0).2.2.2.2 (List.single_le_sum h0 _ (List.mem_map_of_mem hb0))
  refine ⟨y, h1, ⟨h2, hlow, h4.trans (hrep _ le_rfl).2, ?_, hsum⟩, h7⟩
  rw [zero_add] at h5
  exact h5.mono (by omega) hsum.le ((p2_pos _).le.trans hlow)

/-- Rows of a matrix. -/
theorem ok_row_pow {B : Type} [DecidableEq B] {bs : List B} {g : B → Option (FP (.binary64 ω))} {F : B → FP (.binary64 ω)} (P : B → Prop)
    [DecidablePred P] {G : B → FP (.binary64 ω)} (hg : ∀ b ∈ bs, g b = if P b then some (G b) else none) {x H : B → ℝ}
    {p q k n w : Nat} (hp : p ≤ 1022) (hw : w ≤ 53) (hq : q + w ≤ 970) (hn : (bs.filter P).toFinset.card ≤ n) (hnw : n ≤ 2 ^ w)
    (hnd : bs.Nodup) (hne : (bs.filter P).toFinset.Nonempty)
    (h : ∀ b ∈ bs, P b → (G b *. F b : FP (.binary64 ω)) = FP.fin (H b) ∧ Ok ω p q k (x b) (H b)) :
    ∃ y, rowDot bs g F = FP.fin y ∧ Ok ω p (q + w) (k + n) (∑ b ∈ (bs.filter P).toFinset, x b) y := by
  have hmem : ∀ b ∈ bs.filter P, b ∈ bs ∧ P b := fun b hb => by simpa using List.mem_filter.1 hb
  rw [List.toFinset_card_of_nodup (hnd.filter _)] at hn
  obtain ⟨y, h1, h2, h3⟩ := ok_foldl_pow (ω := ω) hp hw hq (F := x) (G := H) (bs.filter P) (hn.trans hnw) hn
    (by rintro e; rw [e] at hne; simp at hne) (fun b hb => (h b (hmem b hb).1 (hmem b hb).2).2)
  refine ⟨y, ?_, ?_⟩
  · rw [rowDot_entries P hg fun b hb hp => (h b hb hp).1]
    exact h1
  · rwa [List.sum_toFinset x (hnd.filter _)]

/-- The vector `v` consists of doubles that are the scores `F`, up to a common factor and `k` roundings; `tw` relates labels with
exactly the same number. -/
def OkVec (ω : Platform) (p q k : Nat) {A : Type} (as : List A) (tw : A → A → Prop) (F : A → ℝ) (v : Vec (FP (.binary64 ω))) : Prop :=
  ∃ (G : A → ℝ) (c : ℝ), v = as.map (fun a => FP.fin (G a)) ∧ 0 < c ∧ (∀ a ∈ as, Ok ω p q k (c * F a) (G a)) ∧
    ∀ a ∈ as, ∀ b ∈ as, tw a b → G a = G b

theorem OkVec.mono {p q k p' q' k' : Nat} {A : Type} {as : List A} {tw : A → A → Prop} {F : A → ℝ} {v : Vec (FP (.binary64 ω))}
    (h : OkVec ω p q k as tw F v) (hp : p ≤ p') (hq : q ≤ q') (hk : k ≤ k') : OkVec ω p' q' k' as tw F v := by
  obtain ⟨G, c, h1, h2, h3, h4⟩ := h
  exact ⟨G, c, h1, h2, fun a ha => (h3 a ha).mono hp hq hk, h4⟩

/-- The occasional division by 1000. -/
theorem OkVec.rescale {p q k : Nat} {A : Type} {as : List A} {tw : A → A → Prop} {F : A → ℝ} {v : Vec (FP (.binary64 ω))}
    (h : OkVec ω p q k as tw F v) (hne : as ≠ []) (hp : p + 10 ≤ 1022) (hq : q ≤ 970) :
    ∃ w, TD.rescale v = .ok w ∧ OkVec ω (p + 10) q (k + 1) as tw F w := by
  obtain ⟨mx, hmx⟩ : ∃ mx, npMax v = .ok mx := by
    obtain ⟨G, c, rfl, -⟩ := h
    cases as with
    | nil => exact absurd rfl hne
    | cons a as => exact ⟨_, rfl⟩
  unfold TD.rescale
  simp only [hmx, bind, Except.bind, pure, Except.pure]
  by_cases hlt : Arith.lt (Arith.ofNat 1000) mx = true
  swap
  · exact ⟨v, by rw [if_neg hlt], h.mono (by omega) le_rfl (by omega)⟩
  rw [if_pos hlt]
  refine ⟨_, rfl, ?_⟩
  obtain ⟨G, c, rfl, hc, h3, h4⟩ := h
  have h1000 : Ok ω 0 10 0 (1000 : ℝ) (1000 : ℝ) := by
    refine ⟨?_, by norm_num, by norm_num, Near.refl _, by norm_num⟩
    have := rep64_nat (ω := ω) (n := 1000) (by norm_num)
    simpa using this
  have e1000 : (Arith.ofNat 1000 : FP (.binary64 ω)) = FP.fin 1000 := by
    have := rep64_nat (ω := ω) (n := 1000) (by norm_num)
    exact (show (Rounding.binary64 ω).rnd ((1000 : Nat) : ℝ) = FNum.fin ((1000 : Nat) : ℝ) from this).trans (by norm_num; rfl)
  have hd : ∀ a ∈ as, ∃ y, (FP.fin (G a) /. FP.fin 1000 : FP (.binary64 ω)) = FP.fin y ∧
      Ok ω (p + 10) q (k + 1) (c * F a / 1000) y := by
    intro a ha
    have ok := h3 a ha
    refine ok.div_le h1000 ?_ hp hq
    refine le_trans ?_ ok.2.2.1
    exact div_le_self ok.pos.le (by norm_num)
  obtain ⟨H, hH⟩ := choose_on hd
  refine ⟨H, c / 1000, ?_, by positivity, fun a ha => ?_, fun a ha b hb ht => ?_⟩
  · rw [List.map_map, e1000]
    apply List.map_congr_left
    intro a ha
    exact (hH a ha).1
  · rw [show c / 1000 * F a = c * F a / 1000 by ring]
    exact (hH a ha).2
  · have e := (hH a ha).1
    rw [h4 a ha b hb ht, (hH b hb).1] at e
    exact (FP.fin_inj.1 e).symm

variable {S V X : Type} [DecidableEq S] [DecidableEq V] [DecidableEq X] (l : List (S × V × X))
  (f : Option (V → X → X → Option (FP (.binary64 ω))))

/-- Sources with the same claims. -/
abbrev twS (s s' : S) : Prop := claimsOf l s = claimsOf l s'

/-- Claims of the same sources. -/
abbrev twC (c c' : V × X) : Prop := sourcesOf l c = sourcesOf l c'

theorem okvec_rows {p q k a w : Nat} {tw : V × X → V × X → Prop} {F : V × X → ℝ} {v : Vec (FP (.binary64 ω))}
    (h : OkVec ω p q k (claims l) tw F v) (hp : p ≤ 1022) (hw : w ≤ 53) (hq : q + w ≤ 970)
    (ha : ∀ s, (claimsOf l s).card ≤ a) (haw : a ≤ 2 ^ w) :
    OkVec ω p (q + w) (k + a) (sources l) (twS l) (sumTrust l F) ((matsOf l f).sc.mulVec v) := by
  obtain ⟨G, c, rfl, hc, h3, -⟩ := h
  have h1 : ∀ s ∈ sources l, ∃ y, rowDot (claims l) (scL l s) (fun c => (FP.fin (G c) : FP (.binary64 ω))) = FP.fin y ∧
      Ok ω p (q + w) (k + a) (∑ d ∈ ((claims l).filter fun c => decide ((s, c) ∈ recorded l)).toFinset, c * F d) y := by
    intro s hs
    refine ok_row_pow (H := G) (fun c => (s, c) ∈ recorded l) (fun c _ => scL_fp l s c) hp hw hq ?_ haw (nodup_claims l) ?_ ?_
    · rw [filter_claims_toFinset]; exact ha s
    · rw [filter_claims_toFinset]; exact claimsOf_nonempty l hs
    · intro b hb _
      exact ⟨(h3 b hb).one_mul, h3 b hb⟩
  obtain ⟨T, hT⟩ := choose_on h1
  refine ⟨T, c, ?_, hc, fun s hs => ?_, fun s hs s' hs' ht => ?_⟩
  · rw [sc_eq_ofRel, Mat.mulVec_ofRel]
    apply List.map_congr_left
    intro s hs
    exact (hT s hs).1
  · have := (hT s hs).2
    rw [filter_claims_toFinset, ← Finset.mul_sum] at this
    exact this
  · have e : scL (α := FP (.binary64 ω)) l s = scL l s' := by
      funext c
      rw [scL_fp, scL_fp]
      have := congrArg (fun F => c ∈ F) ht
      simp only [mem_claimsOf] at this
      simp only [this]
    have h2 := (hT s hs).1
    rw [e, (hT s' hs').1] at h2
    exact (FP.fin_inj.1 h2).symm

theorem okvec_cols {p q k b w : Nat} {tw : S → S → Prop} {F : S → ℝ} {v : Vec (FP (.binary64 ω))}
    (h : OkVec ω p q k (sources l) tw F v) (hp : p ≤ 1022) (hw : w ≤ 53) (hq : q + w ≤ 970)
    (hb : ∀ c, (sourcesOf l c).card ≤ b) (hbw : b ≤ 2 ^ w) :
    OkVec ω p (q + w) (k + b) (claims l) (twC l) (sumBelief l F) ((matsOf l f).sc.T.mulVec v) := by
  obtain ⟨G, c, rfl, hc, h3, -⟩ := h
  have h1 : ∀ d ∈ claims l, ∃ y, rowDot (sources l) (fun s => scL l s d) (fun s => (FP.fin (G s) : FP (.binary64 ω))) = FP.fin y ∧
      Ok ω p (q + w) (k + b) (∑ s ∈ ((sources l).filter fun s => decide ((s, d) ∈ recorded l)).toFinset, c * F s) y := by
    intro d hd
    refine ok_row_pow (H := G) (fun s => (s, d) ∈ recorded l) (fun s _ => scL_fp l s d) hp hw hq ?_ hbw (nodup_sources l) ?_ ?_
    · rw [filter_sources_toFinset]; exact hb d
    · rw [filter_sources_toFinset]; exact sourcesOf_nonempty l hd
    · intro b hb _
      exact ⟨(h3 b hb).one_mul, h3 b hb⟩
  obtain ⟨T, hT⟩ := choose_on h1
  refine ⟨T, c, ?_, hc, fun s hs => ?_, fun s hs s' hs' ht => ?_⟩
  · rw [scT_eq_ofRel, Mat.mulVec_ofRel]
    apply List.map_congr_left
    intro s hs
    exact (hT s hs).1
  · have := (hT s hs).2
    rw [filter_sources_toFinset, ← Finset.mul_sum] at this
    exact this
  · have e : (fun i => scL (α := FP (.binary64 ω)) l i s) = fun i => scL l i s' := by
      funext i
      rw [scL_fp, scL_fp]
      have := congrArg (fun F => i ∈ F) ht
      simp only [mem_sourcesOf] at this
      simp only [this]
    have h2 := (hT s hs).1
    rw [e, (hT s' hs').1] at h2
    exact (FP.fin_inj.1 h2).symm

/-- One iteration. -/
theorem usums_out {p q k a b u v : Nat} {tw : V × X → V × X → Prop} {x : Scores S V X} {bl : Vec (FP (.binary64 ω))}
    (t : Vec (FP (.binary64 ω))) (hl : l ≠ []) (h : OkVec ω p q k (claims l) tw x.2 bl) (hp : p + 10 ≤ 1022) (hu : u ≤ 53) (hv : v ≤ 53)
    (hq : q + (u + v) ≤ 970) (ha : ∀ s, (claimsOf l s).card ≤ a) (hau : a ≤ 2 ^ u) (hb : ∀ c, (sourcesOf l c).card ≤ b)
    (hbv : b ≤ 2 ^ v) :
    ∃ s, usumsBody (matsOf l f) t bl = .ok (some s) ∧ s.cmp1 = t ∧
      OkVec ω (p + 10) (q + (u + v)) (k + (a + b + 1)) (sources l) (twS l) (usumsStep l x).1 s.cmp2 ∧
      OkVec ω (p + 10) (q + (u + v)) (k + (a + b + 1)) (sources l) (twS l) (usumsStep l x).1 s.trust ∧
      OkVec ω (p + 10) (q + (u + v)) (k + (a + b + 1)) (claims l) (twC l) (usumsStep l x).2 s.belief := by
  have h1 := okvec_rows l f h (by omega) hu (by omega) ha hau
  have h2 := okvec_cols l f h1 (by omega) hv (by omega) hb hbv
  obtain ⟨t', e1, h3⟩ := h1.rescale (sources_ne hl) hp (by omega)
  obtain ⟨b', e2, h4⟩ := h2.rescale (claims_ne hl) hp (by omega)
  refine ⟨⟨t, (matsOf l f).sc.mulVec bl, t', b'⟩, ?_, rfl, h1.mono (by omega) (by omega) (by omega),
    h3.mono (by omega) (by omega) (by omega), h4.mono (by omega) (by omega) (by omega)⟩
  unfold usumsBody
  simp only [e1, e2, bind, Except.bind, pure, Except.pure]

/-- The scores after `n` iterations, with any iterator. -/
theorem usums_steps_out {it : IterCfg (FP (.binary64 ω))} {st : IterState (FP (.binary64 ω))} {t bl : Vec (FP (.binary64 ω))} {n : Nat}
    {st' t' b' L} (h : Steps it (usumsBody (matsOf l f)) st t bl n st' t' b' L) {p q k a b u v : Nat}
    {tw : V × X → V × X → Prop} {x : Scores S V X} (hl : l ≠ []) (hin : OkVec ω p q k (claims l) tw x.2 bl)
    (hu : u ≤ 53) (hv : v ≤ 53) (ha : ∀ s, (claimsOf l s).card ≤ a) (hau : a ≤ 2 ^ u) (hb : ∀ c, (sourcesOf l c).card ≤ b)
    (hbv : b ≤ 2 ^ v) (hp : p + 10 * n ≤ 1022) (hq : q + n * (u + v) ≤ 970) (hn : 1 ≤ n) :
    OkVec ω (p + 10 * n) (q + n * (u + v)) (k + n * (a + b + 1)) (sources l) (twS l) ((usumsStep l)^[n] x).1 t' ∧
    OkVec ω (p + 10 * n) (q + n * (u + v)) (k + n * (a + b + 1)) (claims l) (twC l) ((usumsStep l)^[n] x).2 b' := by
  induction h generalizing p q k tw x with
  | refl => omega
  | @cons st t bl s st' n st'' t'' b'' L hfin hbd hcmp hrest ih =>
    have e1 : (n + 1) * (u + v) = (u + v) + n * (u + v) := by ring
    obtain ⟨s', hs', -, -, h2, h3⟩ := usums_out l f t hl hin (by omega) hu hv (by rw [e1] at hq; omega) ha hau hb hbv
    rw [hs'] at hbd
    cases hbd
    cases n with
    | zero =>
      cases hrest
      simpa using ⟨h2, h3⟩
    | succ n =>
      have := ih h3 (by omega) (by rw [e1] at hq; omega) (by omega)
      rw [Function.iterate_succ_apply]
      rw [show p + 10 * (n + 1 + 1) = p + 10 + 10 * (n + 1) by ring,
        show q + (n + 1 + 1) * (u + v) = q + (u + v) + (n + 1) * (u + v) by ring,
        show k + (n + 1 + 1) * (a + b + 1) = k + (a + b + 1) + (n + 1) * (a + b + 1) by ring]
      exact this

/-! ### Rankings -/

/-- Real value of a finite number. -/
noncomputable def fpVal {R : Rounding} (x : FP R) : ℝ := match x with | FNum.fin y => y | _ => 0

theorem keyed_fp {R : Rounding} {A : Type} (as : List A) (G : A → ℝ) :
    KeyedOn (α := FP R) fpVal (as.map fun a => FP.fin (G a)) := by
  intro x hx y hy
  obtain ⟨a, -, rfl⟩ := List.mem_map.1 hx
  obtain ⟨b, -, rfl⟩ := List.mem_map.1 hy
  refine ⟨FP.lt_fin _ _, ?_⟩
  show FNum.eq (.fin (G a)) (.fin (G b)) = decide (G a = G b)
  simp [FNum.eq, FNum.toEReal, EReal.coe_eq_coe_iff]

theorem rankingVector_fp {R : Rounding} {A : Type} [DecidableEq A] (as : List A) (G : A → ℝ) :
    rankingVector (as.map fun a => (FP.fin (G a) : FP R)) = .ok (as.map (rank as.toFinset G)) := by
  rw [rankingVector_eq (keyed_fp as G), List.map_map]
  congr 1
  apply List.map_congr_left
  intro a _
  have e : ∀ y : ℝ, fpVal (FP.fin y : FP R) = y := fun _ => rfl
  simp only [Function.comp_apply, e, rankIn, rank]
  congr 2
  ext y
  simp [e]

theorem clearly_lt {k p q : Nat} {c x x' y y' : ℝ} (hc : 0 < c) (h : Ok ω p q k (c * x) y) (h' : Ok ω p q k (c * x') y')
    (hlt : ClearlyLess k x x') : y < y' := by
  have hx' : 0 < x' := by
    have := h'.2.2.2.2
    exact (mul_pos_iff_of_pos_left hc).1 this
  have hb : 1 - (k : ℝ) / 2 ^ 52 ≤ (1 - uu) ^ (2 * k) := by
    have := one_add_mul_le_pow (a := -uu) (by have := uu_lt_one; linarith) (2 * k)
    have hu : uu = 1 / 2 ^ 53 := by rw [uu, zpow_neg]; norm_num
    calc 1 - (k : ℝ) / 2 ^ 52 = 1 + ((2 * k : Nat) : ℝ) * -uu := by rw [hu]; push_cast; ring
      _ ≤ (1 + -uu) ^ (2 * k) := this
      _ = (1 - uu) ^ (2 * k) := by rw [← sub_eq_add_neg]
  have h1 : x < x' * (1 - uu) ^ (2 * k) := lt_of_lt_of_le hlt (mul_le_mul_of_nonneg_left hb hx'.le)
  have h2 : y * (1 - uu) ^ k < y' * (1 - uu) ^ k := by
    calc y * (1 - uu) ^ k ≤ c * x := h.2.2.2.1.2
      _ < c * (x' * (1 - uu) ^ (2 * k)) := mul_lt_mul_of_pos_left h1 hc
      _ = c * x' * (1 - uu) ^ k * (1 - uu) ^ k := by rw [two_mul, pow_add]; ring
      _ ≤ y' * (1 - uu) ^ k := mul_le_mul_of_nonneg_right h'.2.2.2.1.1 (pow_sub_pos k).le
  exact lt_of_mul_lt_mul_right h2 (pow_sub_pos k).le

/-- Clearly different scores get different ranks, in the right order. -/
theorem OkVec.ranks_lt {p q k : Nat} {A : Type} [DecidableEq A] {as : List A} {tw : A → A → Prop} {F : A → ℝ} {v : Vec (FP (.binary64 ω))}
    (h : OkVec ω p q k as tw F v) :
    ∃ G : A → ℝ, rankingVector v = .ok (as.map (rank as.toFinset G)) ∧
      ∀ a ∈ as, ∀ b ∈ as, ClearlyLess k (F a) (F b) → rank as.toFinset G a < rank as.toFinset G b := by
  obtain ⟨G, c, rfl, hc, h3, -⟩ := h
  refine ⟨G, rankingVector_fp as G, fun a ha b hb hlt => ?_⟩
  exact (rank_lt_rank (List.mem_toFinset.2 ha)).2 (clearly_lt hc (h3 a ha) (h3 b hb) hlt)

/-- If all scores are equal or clearly different, the ranks are the ranks of the exact scores. -/
theorem OkVec.ranks_eq {p q k : Nat} {A : Type} [DecidableEq A] {as : List A} {tw : A → A → Prop} {F : A → ℝ} {v : Vec (FP (.binary64 ω))}
    (h : OkVec ω p q k as tw F v) (htw : ∀ a ∈ as, ∀ b ∈ as, tw a b → F a = F b)
    (hap : ∀ a ∈ as, ∀ b ∈ as, tw a b ∨ ClearlyLess k (F a) (F b) ∨ ClearlyLess k (F b) (F a)) :
    rankingVector v = .ok (as.map (rank as.toFinset F)) := by
  obtain ⟨G, c, rfl, hc, h3, h4⟩ := h
  rw [rankingVector_fp as G]
  congr 1
  rw [ranks_eq_iff]
  have hF : ∀ a ∈ as, ∀ b ∈ as, ClearlyLess k (F a) (F b) → F a < F b := by
    intro a ha b hb hlt
    have : 0 < F b := (mul_pos_iff_of_pos_left hc).1 (h3 b hb).2.2.2.2
    refine lt_of_lt_of_le hlt (mul_le_of_le_one_right this.le ?_)
    have : (0 : ℝ) ≤ k / 2 ^ 52 := by positivity
    linarith
  intro a ha b hb
  have ha' := List.mem_toFinset.1 ha
  have hb' := List.mem_toFinset.1 hb
  rcases hap a ha' b hb' with ht | hlt | hlt
  · rw [h4 a ha' b hb' ht, htw a ha' b hb' ht]
    simp
  · exact ⟨fun _ => hF a ha' b hb' hlt, fun _ => clearly_lt hc (h3 a ha') (h3 b hb') hlt⟩
  · have h1 := clearly_lt hc (h3 b hb') (h3 a ha') hlt
    have h2 := hF b hb' a ha' hlt
    exact ⟨fun h => absurd h (by linarith), fun h => absurd h (by linarith)⟩

end TD
