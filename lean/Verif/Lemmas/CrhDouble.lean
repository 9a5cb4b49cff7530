import Verif.Lemmas.RoundError
/-! CRH in double precision. -/

namespace TD
open Spec
attribute [-instance] instBEqProd

section
variable {S V X : Type} [DecidableEq S] [DecidableEq V] [DecidableEq X] (l : List (S × V × X))

/-- Squares of differences of a number in `[0, 2]` and one in `[0, 1]`. -/
theorem sq_btw {R : Rounding} {N : Nat} (hN : Precise R N) (h4 : 4 ≤ N) {x y : FP R} (hx : Btw R 0 2 x) (hy : Btw R 0 1 y) :
    Btw R 0 4 ((x -. y) *. (x -. y)) := by
  have r2 : Rep R 2 := by have := hN.rep (n := 2) (by omega); simpa using this
  have r4 : Rep R 4 := by have := hN.rep (n := 4) h4; simpa using this
  obtain ⟨u, rfl, -, u0, u1⟩ := hx
  obtain ⟨v, rfl, -, v0, v1⟩ := hy
  have e : (FP.fin u -. FP.fin v : FP R) = R.rnd (u - v) := by
    show FNum.add R (FNum.fin u) (FNum.neg (FNum.fin v)) = _
    simp [FNum.neg, FNum.add, sub_eq_add_neg]
  obtain ⟨d, hd, -, d0, d1⟩ := btw_rnd (R := R) (rep_neg rep_one) r2 (by linarith : -1 ≤ u - v) (by linarith : u - v ≤ 2)
  have hd' : (R.rnd (u - v) : FP R) = FP.fin d := hd
  rw [e, hd', FP.mul_fin]
  exact btw_rnd rep_zero r4 (mul_self_nonneg d) (by nlinarith)

theorem crhZ_btw {R : Rounding} {N : Nat} (hN : Precise R N) (h4 : 4 ≤ N) (f : Option (V → X → X → Option (FP R))) {b : Vec (FP R)} (hb : ∀ x ∈ b, Btw R 0 2 x)
    (k : Nat) : ∀ x ∈ crhZ (matsOf l f) b k, Btw R 0 4 x := by
  have r4 : Rep R 4 := by have := hN.rep (n := 4) h4; simpa using this
  intro z hz
  obtain ⟨j, -, rfl⟩ := List.mem_map.1 hz
  have hsq : Btw R 0 4 ((b.at j -. if k = j then Arith.ofNat 1 else Arith.ofNat 0) *.
      (b.at j -. if k = j then Arith.ofNat 1 else Arith.ofNat 0)) := by
    refine sq_btw hN h4 (at_btw zero_le_two hb j) ?_
    split
    · exact btw_one
    · exact btw_zero zero_le_one
  have hget : Btw R 0 1 ((matsOf l f).mutEx.get k j) := by
    have hall : (matsOf l f).mutEx.All (Btw R 0 1) := Mat.all_ofFn _ _ _ fun _ _ _ h => oneIf_btw h
    unfold Mat.get
    cases e : ((matsOf l f).mutEx.rows.getD k []).lookup j with
    | none => exact btw_zero zero_le_one
    | some x =>
      have hrow : (matsOf l f).mutEx.rows.getD k [] ∈ (matsOf l f).mutEx.rows := by
        rw [List.getD_eq_getElem?_getD] at e ⊢
        cases e' : (matsOf l f).mutEx.rows[k]? with
        | none => rw [e'] at e; cases e
        | some r => exact List.mem_of_getElem? e'
      exact hall _ hrow (j, x) (mem_of_lookup_some e)
  have := btw_mul zero_le_one (by norm_num) (by rw [one_mul]; exact r4) hget hsq
  rwa [one_mul] at this

theorem crhAlpha_btw {R : Rounding} {N : Nat} (hN : Precise R N) (f : Option (V → X → X → Option (FP R)))
    (hC : 4 * ((claims l).length * (claims l).length) + 1 ≤ N) (hC1 : 1 ≤ (claims l).length) {e : ℝ} (he : Rep R e) (he0 : 0 ≤ e) (he1 : e ≤ 1)
    {b : Vec (FP R)} (hb : ∀ x ∈ b, Btw R 0 2 x) :
    ∀ x ∈ crhAlpha (FP.fin e) (matsOf l f) b, Btw R e (4 * ((claims l).length * (claims l).length) + 1 : Nat) x := by
  set C := (claims l).length with hCdef
  have hCN : 4 * C ≤ N := by nlinarith
  have r4 : Rep R 4 := by have := hN.rep (n := 4) (by omega); simpa using this
  have rk : ∀ k : Nat, k ≤ C → Rep R (k * 4) := fun k hk => by
    have := hN.rep (n := k * 4) (by omega); push_cast at this; exact this
  intro y hy
  obtain ⟨r, hr, rfl⟩ := List.mem_map.1 hy
  have hlen : r.length ≤ C := by
    rw [sc_eq_ofRel] at hr
    obtain ⟨s, -, rfl⟩ := List.mem_map.1 hr
    refine (List.length_filterMap_le _ _).trans_eq ?_
    rw [enum, List.length_map, List.length_zipIdx]
  have hsc : (matsOf l f).sc.All (Btw R 0 1) := Mat.all_ofFn _ _ _ fun _ _ _ h => oneIf_btw h
  have hrow : ∀ x ∈ ((List.range (matsOf l f).numClaims).map fun j =>
      r.foldl (fun (acc : FP R) e => acc +. e.2 *. (crhZ (matsOf l f) b e.1).at j) (Arith.ofNat 0)), Btw R 0 (C * 4) x := by
    intro x hx
    obtain ⟨j, -, rfl⟩ := List.mem_map.1 hx
    obtain ⟨y, h1, h2, h3, h4, -⟩ := foldl_btw (K := C) (M := 4) rk
      (fun e : Nat × FP R => e.2 *. (crhZ (matsOf l f) b e.1).at j) r
      (fun e he => by
        have := btw_mul zero_le_one (by norm_num) (by rw [one_mul]; exact r4) (hsc r hr e he)
          (at_btw (by norm_num) (crhZ_btw l hN (by omega) f hb e.1) j)
        rwa [one_mul] at this) 0 (by omega) (Arith.ofNat 0) (by simpa using btw_zero (R := R) (b := 0) le_rfl)
    refine ⟨y, h1, h2, h3 0 FP.zero_eq, h4.trans ?_⟩
    refine mul_le_mul_of_nonneg_right ?_ (by norm_num)
    exact_mod_cast (by omega : 0 + r.length ≤ C)
  have hrl : ((List.range (matsOf l f).numClaims).map fun j =>
      r.foldl (fun (acc : FP R) e => acc +. e.2 *. (crhZ (matsOf l f) b e.1).at j) (Arith.ofNat 0)).length =
      (matsOf l f).numClaims := by simp
  have hnC : (matsOf l f).numClaims = C := rfl
  generalize ((List.range (matsOf l f).numClaims).map fun j =>
      r.foldl (fun (acc : FP R) e => acc +. e.2 *. (crhZ (matsOf l f) b e.1).at j) (Arith.ofNat 0)) = row at hrow hrl
  have hdot := dot_ones_btw (K := C) (M := C * 4) (fun k hk => by
      have h := Nat.mul_le_mul_right C hk
      have := hN.rep (n := k * (C * 4)) (by nlinarith)
      push_cast at this
      exact this) (by positivity) row (hrl.trans hnC).le hrow
  rw [hrl] at hdot
  obtain ⟨y, h1, h2, h3, h4⟩ := hdot
  dsimp only
  rw [h1, FP.add_fin]
  refine btw_rnd he (hN.rep hC) (by linarith) ?_
  push_cast
  linarith

/-- Addition from left to right: the relative error. -/
theorem foldl_err {B : Type} (F : B → ℝ) (L : List B) (hL : ∀ b ∈ L, IsDouble (F b) ∧ 0 ≤ F b) {a : ℝ} (ha : IsDouble a)
    (a0 : 0 ≤ a) (hB : (a + (L.map F).sum) * (1 + uu) ^ L.length ≤ big) :
    ∃ y, L.foldl (fun acc b => acc +. (FP.fin (F b) : FP (.binary64 ω))) (FP.fin a) = FP.fin y ∧
      y ≤ (a + (L.map F).sum) * (1 + uu) ^ L.length := by
  induction L generalizing a with
  | nil => exact ⟨a, rfl, by simp⟩
  | cons b L ih =>
    obtain ⟨db, b0⟩ := hL b (by simp)
    have hs : 0 ≤ (L.map F).sum := List.sum_nonneg (by
      intro x hx
      obtain ⟨c, hc, rfl⟩ := List.mem_map.1 hx
      exact (hL c (by simp [hc])).2)
    have hu := uu_pos
    have q1 : 1 ≤ (1 + uu) ^ L.length := one_le_pow₀ (by linarith)
    rw [List.map_cons, List.sum_cons, List.length_cons, pow_succ] at hB ⊢
    have hov : a + F b ≤ big := by
      refine le_trans ?_ hB
      have c1 : 1 ≤ (1 + uu) ^ L.length * (1 + uu) := by nlinarith
      have c2 : a + (F b + (L.map F).sum) ≤ (a + (F b + (L.map F).sum)) * ((1 + uu) ^ L.length * (1 + uu)) :=
        le_mul_of_one_le_right (by linarith) c1
      linarith
    obtain ⟨z, hz, dz, ez⟩ := add_err (ω := ω) ha db (by rwa [abs_of_nonneg (by linarith)])
    rw [abs_of_nonneg (by linarith : 0 ≤ a + F b)] at ez
    obtain ⟨z', hz', -, z0, -⟩ := rnd_between (R := .binary64 ω) rep_zero
      (rep_two (a := 1023) (by norm_num) (by norm_num)) (by linarith : 0 ≤ a + F b) hov
    have e : z' = z := by rw [hz] at hz'; injection hz' with h; exact h.symm
    subst e
    have hzle : z' ≤ (a + F b) * (1 + uu) := by
      have := (abs_le.1 ez).2
      linarith
    have hle : (z' + (L.map F).sum) * (1 + uu) ^ L.length ≤
        (a + (F b + (L.map F).sum)) * ((1 + uu) ^ L.length * (1 + uu)) := by
      have c : z' + (L.map F).sum ≤ (a + (F b + (L.map F).sum)) * (1 + uu) := by nlinarith
      have := mul_le_mul_of_nonneg_right c (by linarith : 0 ≤ (1 + uu) ^ L.length)
      nlinarith
    obtain ⟨y, h1, h2⟩ := ih (fun b hb => hL b (by simp [hb])) dz z0 (hle.trans hB)
    refine ⟨y, ?_, h2.trans hle⟩
    rw [List.foldl_cons]
    have e2 : (FP.fin a +. FP.fin (F b) : FP (.binary64 ω)) = FP.fin z' := by rw [FP.add_fin]; exact hz
    rw [e2]
    exact h1

/-- The sum of some of the numbers, added from left to right, over the sum of all of them, added in any
order. -/
theorem ratio_err {B : Type} (L M : List B) (hs : M.Subperm L) (hn : L.length ≤ 2 ^ 50) (F : B → ℝ)
    (hL : ∀ b ∈ L, IsDouble (F b) ∧ 0 ≤ F b ∧ F b ≤ 2 ^ (7 : ℤ)) {y t : ℝ}
    (hy : M.foldl (fun acc b => acc +. (FP.fin (F b) : FP (.binary64 ω))) (FP.fin 0) = FP.fin y)
    (ht : (Arith.sum (L.map fun b => FP.fin (F b)) : FP (.binary64 ω)) = FP.fin t) (t0 : 0 < t) :
    y / t ≤ 1 + L.length * 2 ^ (-50 : ℤ) := by
  obtain ⟨p1, p2⟩ := pow_uu (n := L.length) (by omega)
  have hu := uu_pos
  have q1 : 1 ≤ (1 + uu) ^ L.length := one_le_pow₀ (by linarith)
  have hsum0 : 0 ≤ (L.map F).sum := List.sum_nonneg (by
    intro x hx
    obtain ⟨c, hc, rfl⟩ := List.mem_map.1 hx
    exact (hL c hc).2.1)
  have hsum : (L.map F).sum ≤ 2 ^ (57 : ℤ) := by
    have h1 : (L.map F).sum ≤ (L.map fun _ => (2 : ℝ) ^ (7 : ℤ)).sum := sum_map_le fun b hb => (hL b hb).2.2
    rw [sum_map_const] at h1
    have h2 : (L.length : ℝ) ≤ 2 ^ (50 : ℤ) := by exact_mod_cast hn
    calc (L.map F).sum ≤ L.length * 2 ^ (7 : ℤ) := h1
      _ ≤ 2 ^ (50 : ℤ) * 2 ^ (7 : ℤ) := mul_le_mul_of_nonneg_right h2 (by positivity)
      _ = 2 ^ (57 : ℤ) := by rw [← zpow_add₀ two_ne_zero]; norm_num
  have hsumM : (M.map F).sum ≤ (L.map F).sum := by
    obtain ⟨l', hp, hsub⟩ := hs
    rw [← (hp.map F).sum_eq]
    refine (hsub.map F).sum_le_sum ?_
    intro x hx
    obtain ⟨c, hc, rfl⟩ := List.mem_map.1 hx
    exact (hL c hc).2.1
  have hbig : (L.map F).sum * (1 + uu) ^ L.length ≤ big := by
    have h58 : (2 : ℝ) ^ (57 : ℤ) * 2 = 2 ^ (58 : ℤ) := by norm_num
    calc (L.map F).sum * (1 + uu) ^ L.length ≤ 2 ^ (57 : ℤ) * 2 :=
          mul_le_mul hsum p2 (by linarith) (by positivity)
      _ = 2 ^ (58 : ℤ) := h58
      _ ≤ big := le_big (by norm_num)
  have hlen := hs.length_le
  have qM := pow_uu_le hlen
  have hyle : y ≤ (L.map F).sum * (1 + uu) ^ L.length := by
    have hM0 : 0 ≤ (M.map F).sum := List.sum_nonneg (by
      intro x hx
      obtain ⟨c, hc, rfl⟩ := List.mem_map.1 hx
      exact (hL c (hs.subset hc)).2.1)
    have hle : (0 + (M.map F).sum) * (1 + uu) ^ M.length ≤ (L.map F).sum * (1 + uu) ^ L.length := by
      rw [zero_add]
      exact mul_le_mul hsumM qM (by positivity) hsum0
    obtain ⟨y', h1, h2⟩ := foldl_err (ω := ω) F M (fun b hb => ⟨(hL b (hs.subset hb)).1, (hL b (hs.subset hb)).2.1⟩)
      isDouble_zero le_rfl (hle.trans hbig)
    rw [hy] at h1
    rw [FP.fin_inj.1 h1]
    exact h2.trans hle
  have habs : (L.map fun b => |F b|).sum = (L.map F).sum := by
    congr 1
    exact List.map_congr_left fun b hb => abs_of_nonneg (hL b hb).2.1
  obtain ⟨t', -, h1, h2⟩ := sum_err (ω := ω) L F (fun b hb => (hL b hb).1) (by rw [habs]; exact hbig)
  rw [ht] at h1
  obtain rfl := FP.fin_inj.1 h1
  rw [habs] at h2
  have hn8 : (L.length : ℝ) * 2 ^ (-50 : ℤ) = 8 * (L.length * uu) := by
    rw [uu, show (2 : ℝ) ^ (-50 : ℤ) = 8 * 2 ^ (-53 : ℤ) by norm_num]; ring
  have hk := n_uu hn
  have k0 : 0 ≤ (L.length : ℝ) * uu := mul_nonneg (Nat.cast_nonneg _) hu.le
  rw [div_le_iff₀ t0, hn8]
  have h3 := (abs_le.1 h2).1
  generalize (L.length : ℝ) * uu = k at *
  generalize (1 + uu) ^ L.length = q at *
  generalize (L.map F).sum = σ at *
  clear habs hn8 hbig hsum
  have hyk : y ≤ σ * (1 + 2 * k) := hyle.trans (mul_le_mul_of_nonneg_left p1 hsum0)
  have htk : σ * (1 - 2 * k) ≤ t := by
    have := mul_le_mul_of_nonneg_left p1 hsum0
    linarith
  have : (1 + 8 * k) * (σ * (1 - 2 * k)) ≤ (1 + 8 * k) * t := mul_le_mul_of_nonneg_left htk (by linarith)
  have h4 : 0 ≤ σ * (k * (1 - 8 * k)) := mul_nonneg hsum0 (mul_nonneg k0 (by linarith))
  nlinarith

/-- One iteration of CRH. -/
theorem crh_normal (f : Option (V → X → X → Option (FP (.binary64 ω))))
    (hsize : (sources l).length * (4 * ((claims l).length * (claims l).length) + 1) ≤ 2 ^ 53) (hS50 : (sources l).length ≤ 2 ^ 50)
    (hl : l ≠ []) {e : ℝ} (he : Rep (.binary64 ω) e) (he0 : (2 : ℝ) ^ (-60 : ℤ) ≤ e) (he1 : e ≤ 1)
    (t : Vec (FP (.binary64 ω))) {b : Vec (FP (.binary64 ω))} (hb : ∀ x ∈ b, Btw (.binary64 ω) 0 2 x) :
    ∃ s, crhBody (FP.fin e) (matsOf l f) t b = .ok (some s) ∧ s.cmp1 = t ∧ s.cmp2 = s.trust ∧
      (∀ x ∈ s.trust, Btw (.binary64 ω) e (2 ^ (7 : ℤ)) x) ∧ (∀ x ∈ s.belief, Btw (.binary64 ω) 0 (1 + (sources l).length * 2 ^ (-50 : ℤ)) x) ∧
      (AddsInTurn (.binary64 ω) (sources l).length → ∀ x ∈ s.belief, Btw (.binary64 ω) 0 1 x) ∧
      s.trust.length = (sources l).length ∧ s.belief.length = (claims l).length := by
  have hp60 : (0 : ℝ) < 2 ^ (-60 : ℤ) := Double.two_zpow_pos _
  have hepos : 0 < e := hp60.trans_le he0
  set C := (claims l).length with hCdef
  have hS1 : 1 ≤ (sources l).length := List.length_pos_iff.2 (sources_ne hl)
  have hC : 4 * (C * C) + 1 ≤ 2 ^ 53 := (Nat.le_mul_of_pos_left _ hS1).trans hsize
  have hSl : (sources l).length ≤ 2 ^ 53 := hS50.trans (by norm_num)
  have hC1 : 1 ≤ C := List.length_pos_iff.2 (claims_ne hl)
  have hα := crhAlpha_btw l C31_binary64 f hC hC1 he hepos.le he1 hb
  have hlen : (crhAlpha (FP.fin e) (matsOf l f) b).length = (sources l).length := by
    unfold crhAlpha
    rw [sc_eq_ofRel]
    simp [Mat.ofRel]
  -- the total
  obtain ⟨tot, ht1, ht2, ht3, ht4, ht5⟩ := sum_btw (K := (sources l).length) (M := ((4 * (C * C) + 1 : Nat) : ℝ))
    (fun k hk => by
      rw [← Nat.cast_mul]
      exact rep64_nat ((Nat.mul_le_mul_right _ hk).trans hsize)) (Nat.cast_nonneg _) _ hlen.le
    fun x hx => (hα x hx).mono hepos.le le_rfl
  have htot : tot ≤ 2 ^ (53 : ℤ) := by
    refine ht4.trans ?_
    rw [← Nat.cast_mul]
    exact_mod_cast hsize
  -- the new trust scores
  have htrust : ∀ x ∈ (crhAlpha (FP.fin e) (matsOf l f) b).map (fun a =>
      (FP.fin e -. Arith.log (a /. Arith.sum (crhAlpha (FP.fin e) (matsOf l f) b)) : FP (.binary64 ω))),
      Btw (.binary64 ω) e (2 ^ (7 : ℤ)) x := by
    intro x hx
    obtain ⟨a, ha, rfl⟩ := List.mem_map.1 hx
    obtain ⟨u, rfl, ur, u0, u1⟩ := hα a ha
    have hut : u ≤ tot := ht5 _ ha u rfl
    have hupos : 0 < u := hepos.trans_le u0
    have htpos : 0 < tot := hupos.trans_le hut
    have hq : (2 : ℝ) ^ (-113 : ℤ) ≤ u / tot := by
      rw [le_div_iff₀ htpos]
      calc (2 : ℝ) ^ (-113 : ℤ) * tot ≤ 2 ^ (-113 : ℤ) * 2 ^ (53 : ℤ) :=
            mul_le_mul_of_nonneg_left htot (Double.two_zpow_pos _).le
        _ = 2 ^ (-60 : ℤ) := by rw [← zpow_add₀ two_ne_zero]; norm_num
        _ ≤ u := he0.trans u0
    obtain ⟨q, hq1, qr, q0, q1⟩ := rnd_between (R := .binary64 ω)
      (rep64_pow (e := -113) (by norm_num) (by norm_num)) rep_one hq ((div_le_one htpos).2 hut)
    have hqpos : 0 < q := (Double.two_zpow_pos _).trans_le q0
    have hlog0 : Real.log q ≤ 0 := Real.log_nonpos hqpos.le q1
    have hlog1 : -((113 : Nat) : ℝ) ≤ Real.log q := by
      have h1 := Real.log_le_log (Double.two_zpow_pos _) q0
      rw [Real.log_zpow] at h1
      have h2 : Real.log 2 ≤ 1 := by
        have := Real.log_le_sub_one_of_pos (zero_lt_two (α := ℝ))
        linarith
      push_cast at h1 ⊢
      linarith
    obtain ⟨g, hg1, gr, g0, g1⟩ := faithful_between ((Rounding.binary64 ω).log_faithful q hqpos) (rep_neg (rep64_nat (n := 113) (by norm_num)))
      rep_zero hlog1 hlog0
    have e1 : (FP.fin u /. Arith.sum (crhAlpha (FP.fin e) (matsOf l f) b) : FP (.binary64 ω)) = FP.fin q := by
      rw [ht1, FP.div_fin _ htpos.ne']; exact hq1
    have e2 : (Arith.log (FP.fin q : FP (.binary64 ω))) = FP.fin g := by
      show FNum.log (.binary64 ω) (.fin q) = _
      simp only [FNum.log]
      rw [if_neg (by linarith), if_neg (by linarith), hg1]
      rfl
    have e3 : (FP.fin e -. FP.fin g : FP (.binary64 ω)) = (Rounding.binary64 ω).rnd (e - g) := by
      show FNum.add (.binary64 ω) (FNum.fin e) (FNum.neg (FNum.fin g)) = _
      simp [FNum.neg, FNum.add, sub_eq_add_neg]
    rw [e1, e2, e3]
    refine btw_rnd he (rep64_pow (by norm_num) (by norm_num)) (by linarith) ?_
    norm_num at g0 ⊢
    linarith
  obtain ⟨T, hT⟩ : ∃ T : S → FP (.binary64 ω), ((crhAlpha (FP.fin e) (matsOf l f) b).map fun a =>
      (FP.fin e -. Arith.log (a /. Arith.sum (crhAlpha (FP.fin e) (matsOf l f) b)) : FP (.binary64 ω))) = (sources l).map T := by
    unfold crhAlpha
    rw [sc_eq_ofRel]
    exact ⟨_, by simp only [Mat.ofRel, List.map_map]; rfl⟩
  rw [hT] at htrust
  have hT' : ∀ s, ∃ y, s ∈ sources l → T s = FP.fin y ∧ Rep (.binary64 ω) y ∧ e ≤ y ∧ y ≤ 2 ^ (7 : ℤ) := by
    intro s
    by_cases hs : s ∈ sources l
    · obtain ⟨y, hy⟩ := htrust _ (List.mem_map_of_mem hs)
      exact ⟨y, fun _ => hy⟩
    · exact ⟨0, fun h => absurd h hs⟩
  choose F hF using hT'
  have hTF : (sources l).map T = (sources l).map fun s => FP.fin (F s) :=
    List.map_congr_left fun s hs => (hF s hs).1
  have hp7 : (0 : ℝ) < 2 ^ (7 : ℤ) := Double.two_zpow_pos _
  have hrep7 : ∀ k : Nat, k ≤ (sources l).length → Rep (.binary64 ω) (k * 2 ^ (7 : ℤ)) :=
    fun k hk => rep64_mul (hk.trans hSl) (by norm_num) (by norm_num)
  obtain ⟨tt, hs1, hs2, hs3, hs4, hs5⟩ := sum_btw hrep7 hp7.le ((sources l).map T) (by simp)
    fun x hx => (htrust x hx).mono hepos.le le_rfl
  have htt : 0 < tt := by
    obtain ⟨s, hs⟩ := List.exists_mem_of_ne_nil _ (sources_ne hl)
    exact (hepos.trans_le (hF s hs).2.2.1).trans_le (hs5 (T s) (List.mem_map_of_mem hs) _ (hF s hs).1)
  have hbel : ∀ x ∈ ((matsOf l f).sc.T.mulVec ((sources l).map T)).map (· /. Arith.sum ((sources l).map T)),
      Btw (.binary64 ω) 0 (1 + (sources l).length * 2 ^ (-50 : ℤ)) x := by
    intro x hx
    obtain ⟨y, hy, rfl⟩ := List.mem_map.1 hx
    rw [scT_eq_ofRel, hTF, Mat.mulVec_ofRel] at hy
    obtain ⟨c, -, rfl⟩ := List.mem_map.1 hy
    obtain ⟨r, hr1, hr2, hr3, -, -⟩ := rowDot_btw (R := .binary64 ω) (fun s => (s, c) ∈ recorded l)
      (fun s _ => scL_fp l s c) hrep7 (fun s hs => ⟨(hF s hs).2.1, hepos.le.trans (hF s hs).2.2.1, (hF s hs).2.2.2⟩) hp7.le
    have e1 : (rowDot (sources l) (fun s => scL l s c) (fun s => FP.fin (F s)) /. Arith.sum ((sources l).map T) :
        FP (.binary64 ω)) = (Rounding.binary64 ω).rnd (r / tt) := by
      rw [hr1, hs1, FP.div_fin _ htt.ne']
    rw [e1]
    have hr1' := hr1
    rw [rowDot_part (fun s => (s, c) ∈ recorded l) (fun s _ => scL_fp l s c) (fun s hs => (hF s hs).2.1)] at hr1'
    refine btw_rnd rep_zero ?_ (div_nonneg hr3 htt.le) (ratio_err (sources l)
      ((sources l).filter fun s => decide ((s, c) ∈ recorded l)) List.filter_sublist.subperm hS50 F
      (fun s hs => ⟨((C31_nearest _).1 _ (hF s hs).2.1).1, hepos.le.trans (hF s hs).2.2.1, (hF s hs).2.2.2⟩) hr1'
      (by rw [← hTF]; exact hs1) htt)
    have e : 1 + ((sources l).length : ℝ) * 2 ^ (-50 : ℤ) = ((2 ^ 50 + (sources l).length : Nat) : ℝ) * 2 ^ (-50 : ℤ) := by
      push_cast
      rw [add_mul]
      norm_num
    rw [e]
    exact rep64_mul (by omega) (by norm_num) (by norm_num)
  have hbel1 : AddsInTurn (.binary64 ω) (sources l).length →
      ∀ x ∈ ((matsOf l f).sc.T.mulVec ((sources l).map T)).map (· /. Arith.sum ((sources l).map T)),
      Btw (.binary64 ω) 0 1 x := by
    intro hturn x hx
    have hun := crh_belief (l := l) (f := f) (T := T) (fun s hs => by
      obtain ⟨h1, h2, h3, -⟩ := hF s hs
      rw [h1]; exact .fin _ (hepos.le.trans h3) h2) hturn x hx
    obtain ⟨y, rfl, ry, y0, -⟩ := hbel x hx
    have key : ∀ z : FNum, z = .fin y → UN z → y ≤ 1 := by
      intro z hz h
      subst hz
      cases h
      assumption
    exact ⟨y, rfl, ry, y0, key _ rfl hun⟩
  refine ⟨⟨t, (sources l).map T, (sources l).map T,
    ((matsOf l f).sc.T.mulVec ((sources l).map T)).map (· /. Arith.sum ((sources l).map T))⟩, ?_, rfl, rfl, htrust, hbel, hbel1,
    by simp, ?_⟩
  · simp only [crhBody]
    rw [hT]
  · rw [scT_eq_ofRel, Mat.mulVec_ofRel]
    simp [hCdef]

end
end TD
