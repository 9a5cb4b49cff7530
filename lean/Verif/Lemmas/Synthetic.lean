import Verif.Spec.Synthetic
import Verif.Lemmas.Exact
import Verif.Lemmas.Matrix
import Verif.Lemmas.Rounded
import Mathlib.Algebra.BigOperators.Group.List.Basic
import Mathlib.Data.List.Basic

namespace TD
open Spec Ex

/-! ### Programs that always succeed -/

/-- From every state the program succeeds with a value satisfying `Q`. -/
def Sat {β : Type} (x : Rand β) (Q : β → Prop) : Prop :=
  ∀ k, ∃ b k', x k = .ok (b, k') ∧ Q b

theorem Sat.pure {β : Type} {b : β} {Q : β → Prop} (h : Q b) : Sat (Pure.pure b : Rand β) Q :=
  fun k => ⟨b, k, rfl, h⟩

theorem Sat.bind {β γ : Type} {x : Rand β} {f : β → Rand γ} {P : β → Prop} {Q : γ → Prop}
    (hx : Sat x P) (hf : ∀ b, P b → Sat (f b) Q) : Sat (x >>= f) Q := by
  intro k
  obtain ⟨b, k', h1, h2⟩ := hx k
  obtain ⟨c, k'', h3, h4⟩ := hf b h2 k'
  refine ⟨c, k'', ?_, h4⟩
  show Rand.bind x f k = _
  unfold Rand.bind
  rw [h1]; exact h3

theorem Sat.mono {β : Type} {x : Rand β} {P Q : β → Prop} (hx : Sat x P) (h : ∀ b, P b → Q b) :
    Sat x Q := by
  intro k
  obtain ⟨b, k', h1, h2⟩ := hx k
  exact ⟨b, k', h1, h b h2⟩

/-! ### Sampling -/

/-- Running totals of reals. -/
def rcum (acc : ℝ) : List ℝ → List ℝ
  | [] => []
  | p :: ps => (acc + p) :: rcum (acc + p) ps

theorem cumsum_fin (acc : ℝ) (p : List ℝ) :
    cumsum (fin acc) (p.map fin) = (rcum acc p).map fin := by
  induction p generalizing acc with
  | nil => rfl
  | cons x p ih =>
    simp only [List.map_cons, cumsum, rcum]
    have : Arith.add (fin acc) (fin x) = fin (acc + x) := rfl
    rw [this, ih]

theorem rcum_getLast (acc : ℝ) (p : List ℝ) (d : ℝ) (h : p ≠ []) :
    (rcum acc p).getLastD d = acc + p.sum := by
  induction p generalizing acc d with
  | nil => exact absurd rfl h
  | cons x p ih =>
    cases p with
    | nil => simp [rcum]
    | cons y p =>
      have := ih (acc + x) d (by simp)
      simp only [rcum, List.sum_cons] at this ⊢
      rw [List.getLastD_cons, List.getLastD_cons] at *
      rw [this]; ring

open Classical in
theorem rcum_search (acc u : ℝ) (p : List ℝ) (hp : ∀ x ∈ p, 0 ≤ x) (h1 : acc ≤ u)
    (h2 : u < acc + p.sum) :
    ∃ x, p[((rcum acc p).takeWhile fun c => decide (c ≤ u)).length]? = some x ∧ 0 < x := by
  induction p generalizing acc with
  | nil => simp at h2; linarith
  | cons x p ih =>
    simp only [rcum, List.takeWhile_cons]
    by_cases h : acc + x ≤ u
    · simp only [h, decide_true, if_true, List.length_cons, List.getElem?_cons_succ]
      exact ih (acc + x) (fun y hy => hp y (by simp [hy])) h (by simp at h2; linarith)
    · simp only [h, decide_false, Bool.false_eq_true, if_false, List.length_nil,
        List.getElem?_cons_zero]
      exact ⟨x, rfl, by linarith⟩

theorem fin_le (x y : ℝ) : Arith.le (fin x) (fin y) = decide (x ≤ y) := by
  have h1 : Arith.lt (fin x) (fin y) = decide (x < y) := by
    show FNum.lt (.fin x) (.fin y) = _
    simp [FNum.lt, FNum.toEReal]
  have h2 : Arith.eq (fin x) (fin y) = decide (x = y) := by
    show FNum.eq (.fin x) (.fin y) = _
    simp [FNum.eq, FNum.toEReal]
  unfold Arith.le
  rw [h1, h2, Bool.eq_iff_iff]
  simp [le_iff_lt_or_eq]

theorem foldl_sum (p : List ℝ) (acc : ℝ) :
    (p.map FNum.fin).foldl (FNum.add .exact) (FNum.fin acc) = FNum.fin (acc + p.sum) := by
  induction p generalizing acc with
  | nil => simp
  | cons x p ih =>
    have : FNum.add .exact (FNum.fin acc) (FNum.fin x) = FNum.fin (acc + x) := rfl
    rw [List.map_cons, List.foldl_cons, this, ih, List.sum_cons, add_assoc]

theorem kahan_fold (p : List ℝ) (acc : ℝ) :
    (p.map fin).foldl kahanStep (fin acc, fin 0) = (fin (acc + p.sum), fin 0) := by
  induction p generalizing acc with
  | nil => simp
  | cons x p ih =>
    have : kahanStep (fin acc, fin 0) (fin x) = (fin (acc + x), fin 0) := by
      unfold kahanStep
      dsimp only
      have e1 : (fin x -. fin 0 : Ex) = fin x := by
        show FNum.fin (x + -0) = FNum.fin x
        simp
      have e2 : (fin acc +. fin x : Ex) = fin (acc + x) := rfl
      have e3 : (fin (acc + x) -. fin acc : Ex) = fin x := by
        show FNum.fin (acc + x + -acc) = FNum.fin x
        congr 1; ring
      have e4 : (fin x -. fin x : Ex) = fin 0 := by
        show FNum.fin (x + -x) = FNum.fin 0
        congr 1; ring
      rw [e1, e2, e3, e4]
    rw [List.map_cons, List.foldl_cons, this, ih, List.sum_cons, add_assoc]

/-- Without rounding the compensated sum is the sum. -/
theorem kahan_fin (p : List ℝ) : kahanSum (p.map fin) = fin p.sum := by
  cases p with
  | nil => simp only [List.map_nil, kahanSum, List.sum_nil]; exact FP.zero_eq
  | cons x p =>
    simp only [List.map_cons, kahanSum, List.sum_cons]
    have e : (Arith.ofNat 0 : Ex) = fin 0 := FP.zero_eq
    rw [e, kahan_fold]

/-! ### Sampling with rounding -/

section
variable {R : Rounding}

theorem FP.le_fin (x y : ℝ) : Arith.le (FP.fin x : FP R) (FP.fin y) = decide (x ≤ y) := by
  have h1 := FP.lt_fin (R := R) x y
  have h2 : Arith.eq (FP.fin x : FP R) (FP.fin y) = decide (x = y) := by
    show FNum.eq (.fin x) (.fin y) = _
    simp [FNum.eq, FNum.toEReal]
  unfold Arith.le
  rw [h1, h2, Bool.eq_iff_iff]
  simp [le_iff_lt_or_eq]

theorem FP.isNan_fin (x : ℝ) : isNan (FP.fin x : FP R) = false := by
  have h2 : Arith.eq (FP.fin x : FP R) (FP.fin x) = true := by
    show FNum.eq (.fin x) (.fin x) = _
    simp [FNum.eq, FNum.toEReal]
  unfold isNan
  rw [h2]; rfl

theorem foldl_pinf (p : List ℝ) : (p.map FNum.fin).foldl (FNum.add R) .pinf = .pinf := by
  induction p with
  | nil => rfl
  | cons x p ih => exact ih

/-- Sums of nonnegative numbers that stay finite. -/
theorem foldl_fin (p : List ℝ) (hp : ∀ x ∈ p, 0 ≤ x) (a L : ℝ) (ha : Rep R a)
    (h : (p.map FNum.fin).foldl (FNum.add R) (.fin a) = .fin L) : a ≤ L ∧ Rep R L := by
  induction p generalizing a with
  | nil => cases h; exact ⟨le_rfl, ha⟩
  | cons x p ih =>
    have hx := hp x (by simp)
    simp only [List.map_cons, List.foldl_cons, FNum.add] at h
    have m := R.mono a (a + x) (by linarith)
    rw [show R.rnd a = .fin a from ha] at m
    cases hb : R.rnd (a + x) with
    | nan => exact absurd hb (R.notNan _)
    | pinf => rw [hb, foldl_pinf] at h; cases h
    | ninf => rw [hb] at m; simp [FNum.toEReal] at m
    | fin b =>
      rw [hb] at h m
      have hab : a ≤ b := by simpa [FNum.toEReal] using m
      obtain ⟨h1, h2⟩ := ih (fun y hy => hp y (by simp [hy])) b (R.idem _ _ hb) h
      exact ⟨hab.trans h1, h2⟩

theorem lastOr_cumsum {α : Type} [Arith α] (d acc : α) (p : List α) (hp : p ≠ []) :
    lastOr d (cumsum acc p) = p.foldl Arith.add acc := by
  induction p generalizing acc d with
  | nil => exact absurd rfl hp
  | cons x p ih =>
    cases p with
    | nil => rfl
    | cons y p =>
      have := ih (acc +. x) (acc +. x) (by simp)
      simp only [cumsum, List.foldl_cons, lastOr, List.getLastD_cons] at this ⊢
      exact this

theorem search_fin (u : ℝ) (hu : u < 1) (L : ℝ) (hL : 0 < L) (p : List ℝ) (hp : ∀ x ∈ p, 0 ≤ x) (a q : ℝ)
    (ha : Rep R a) (ha0 : 0 ≤ a) (h : (p.map FNum.fin).foldl (FNum.add R) (.fin a) = .fin L)
    (hq : R.rnd (a / L) = .fin q) (hqu : q ≤ u) :
    ∃ x, p[searchRight ((cumsum (FP.fin a : FP R) (p.map FP.fin)).map (· /. FP.fin L)) (FP.fin u)]? = some x ∧
      0 < x := by
  induction p generalizing a q with
  | nil =>
    cases h
    rw [div_self hL.ne', R.one] at hq
    cases hq
    linarith
  | cons x p ih =>
    have hx := hp x (by simp)
    have hp' : ∀ y ∈ p, 0 ≤ y := fun y hy => hp y (by simp [hy])
    simp only [List.map_cons, List.foldl_cons, FNum.add] at h
    have m := R.mono a (a + x) (by linarith)
    rw [show R.rnd a = .fin a from ha] at m
    cases hb : R.rnd (a + x) with
    | nan => exact absurd hb (R.notNan _)
    | pinf => rw [hb, foldl_pinf] at h; cases h
    | ninf => rw [hb] at m; simp [FNum.toEReal] at m
    | fin b =>
      rw [hb] at h m
      have hab : a ≤ b := by simpa [FNum.toEReal] using m
      have hbr : Rep R b := R.idem _ _ hb
      obtain ⟨hbL, -⟩ := foldl_fin p hp' b L hbr h
      obtain ⟨q', hq', -, -, -⟩ := rnd_between (R := R) rep_zero rep_one
        (div_nonneg (ha0.trans hab) hL.le) ((div_le_one hL).2 hbL)
      have e1 : (FP.fin a +. FP.fin x : FP R) = FP.fin b := hb
      have e2 : (FP.fin b /. FP.fin L : FP R) = FP.fin q' := (FP.div_fin b hL.ne').trans hq'
      have e3 : searchRight ((cumsum (FP.fin a : FP R) ((x :: p).map FP.fin)).map (· /. FP.fin L)) (FP.fin u) =
          if q' ≤ u then searchRight ((cumsum (FP.fin b : FP R) (p.map FP.fin)).map (· /. FP.fin L)) (FP.fin u) + 1
          else 0 := by
        unfold searchRight
        simp only [List.map_cons, cumsum, e1, e2, List.takeWhile_cons, FP.le_fin, decide_eq_true_eq]
        split <;> simp
      rw [e3]
      by_cases hle : q' ≤ u
      · rw [if_pos hle, List.getElem?_cons_succ]
        exact ih hp' b q' hbr (ha0.trans hab) h hq' hle
      · rw [if_neg hle, List.getElem?_cons_zero]
        refine ⟨x, rfl, lt_of_le_of_ne hx ?_⟩
        rintro rfl
        rw [add_zero, show R.rnd a = .fin a from ha] at hb
        cases hb
        rw [hq] at hq'
        cases hq'
        exact hle hqu

/-- Weights whose compensated sum `K` passes the check, and with a positive sum: the index found in the
cumulative sums. -/
theorem choice_eq (g : Rng (FP R)) (p : List ℝ) (hp : ∀ x ∈ p, 0 ≤ x) (K L : ℝ)
    (hK : kahanSum (p.map FP.fin : List (FP R)) = FP.fin K)
    (htol : Arith.lt (Arith.lit 1 67108864 : FP R) (Arith.abs (FP.fin K -. Arith.ofNat 1)) = false)
    (hL : 0 < L) (hs : (p.map FNum.fin).foldl (FNum.add R) (.fin 0) = .fin L) (k : Nat) :
    g.choice (p.map FP.fin) k = .ok (searchRight
      ((cumsum (FP.fin 0 : FP R) (p.map FP.fin)).map (· /. FP.fin L)) (g.unit k), k + 1) := by
  have hne : p ≠ [] := by
    rintro rfl
    cases hs
    exact lt_irrefl _ hL
  have hneg : ((p.map FP.fin : List (FP R)).any fun x => Arith.lt x (Arith.ofNat 0)) = false := by
    rw [List.any_eq_false]
    intro x hx
    obtain ⟨y, hy, rfl⟩ := List.mem_map.1 hx
    rw [FP.zero_eq, FP.lt_fin]
    simp [hp y hy]
  have hlast : lastOr (Arith.ofNat 1 : FP R) (cumsum (Arith.ofNat 0) (p.map FP.fin)) = FP.fin L := by
    rw [lastOr_cumsum _ _ _ (by simpa using hne), FP.zero_eq]
    exact hs
  unfold Rng.choice
  simp only [hneg, hK, htol, hlast, FP.isNan_fin, Bool.false_eq_true, if_false]
  show Rand.bind g.sample _ k = _
  unfold Rand.bind Rng.sample
  rw [FP.zero_eq]
  rfl

/-- Weights whose compensated sum passes the check, and with a positive sum: an index with positive weight. -/
theorem choice_sat (g : Rng (FP R)) (hg : UnitDraws g) (p : List ℝ) (hp : ∀ x ∈ p, 0 ≤ x) (K L : ℝ)
    (hK : kahanSum (p.map FP.fin : List (FP R)) = FP.fin K)
    (htol : Arith.lt (Arith.lit 1 67108864 : FP R) (Arith.abs (FP.fin K -. Arith.ofNat 1)) = false)
    (hL : 0 < L) (hs : (p.map FNum.fin).foldl (FNum.add R) (.fin 0) = .fin L) :
    Sat (g.choice (p.map FP.fin)) fun i => ∃ x, p[i]? = some x ∧ 0 < x := by
  intro k
  obtain ⟨u, hu, hu0, hu1⟩ := hg k
  obtain ⟨x, h1, h2⟩ := search_fin u hu1 L hL p hp 0 0 rep_zero le_rfl hs
    (by rw [zero_div]; exact R.zero) hu0
  refine ⟨_, k + 1, choice_eq g p hp K L hK htol hL hs k, x, ?_, h2⟩
  rw [hu]
  exact h1
end

/-! ### Claims -/

/-- The weights as reals. -/
noncomputable def weightsR (t : ℝ) (tv d : Nat) : List ℝ :=
  (List.replicate d ((1 - t) / ((d : ℝ) - 1))).set tv t

theorem claimWeights_fin (t : ℝ) (tv d : Nat) (hd : 2 ≤ d) :
    claimWeights (fin t) tv d = (weightsR t tv d).map fin := by
  have hw : ((Arith.ofNat 1 -. fin t) /. Arith.ofNat (d - 1) : Ex) = fin ((1 - t) / ((d : ℝ) - 1)) := by
    show FNum.div .exact (.fin (((1 : ℕ) : ℝ) + -t)) (.fin ((d - 1 : ℕ) : ℝ)) = _
    have h : ((d - 1 : ℕ) : ℝ) ≠ 0 := by
      have : d - 1 ≠ 0 := by omega
      exact_mod_cast this
    simp only [FNum.div, h, if_false, Rounding.exact]
    have : ((d - 1 : ℕ) : ℝ) = (d : ℝ) - 1 := by
      rw [Nat.cast_sub (by omega)]; simp
    rw [this]
    simp only [Nat.cast_one, ← sub_eq_add_neg]; rfl
  unfold claimWeights weightsR
  dsimp only
  rw [hw, List.map_set, List.map_replicate]

theorem weightsR_get (t : ℝ) (tv d v : Nat) (htv : tv < d) :
    (weightsR t tv d)[v]? = if v < d then some (claimProb t tv d v) else none := by
  unfold weightsR claimProb
  by_cases hv : v < d
  · rw [if_pos hv]
    by_cases h : v = tv
    · subst h; simp [hv]
    · rw [List.getElem?_set_ne (Ne.symm h)]
      simp [hv, h]
  · rw [if_neg hv, List.getElem?_eq_none]
    simp; omega

theorem weightsR_sum (t : ℝ) (tv d : Nat) (hd : 2 ≤ d) (htv : tv < d) :
    (weightsR t tv d).sum = 1 := by
  unfold weightsR
  have h1 : (d : ℝ) - 1 ≠ 0 := by
    have : (2 : ℝ) ≤ d := by exact_mod_cast hd
    linarith
  rw [List.set_eq_take_append_cons_drop]
  simp only [List.length_replicate, htv, if_true, List.sum_append, List.sum_cons, List.take_replicate,
    List.drop_replicate, List.sum_replicate, nsmul_eq_mul]
  have e1 : min tv d = tv := by omega
  rw [e1, Nat.cast_sub (by omega)]
  push_cast
  field_simp
  ring

theorem weightsR_nonneg (t : ℝ) (tv d : Nat) (hd : 2 ≤ d) (h0 : 0 ≤ t) (h1 : t ≤ 1) :
    ∀ x ∈ weightsR t tv d, 0 ≤ x := by
  intro x hx
  have h2 : (0 : ℝ) ≤ (d : ℝ) - 1 := by
    have : (2 : ℝ) ≤ d := by exact_mod_cast hd
    linarith
  rcases List.mem_or_eq_of_mem_set hx with h | rfl
  · obtain ⟨_, rfl⟩ := List.mem_replicate.1 h
    exact div_nonneg (by linarith) h2
  · exact h0

/-- Sampling works: from every state, for every true value of the domain. -/
def Samples {R : Rounding} (g : Rng (FP R)) (d : Nat) (t : ℝ) : Prop :=
  ∀ tv < d, Sat (generateClaim g (FP.fin t) tv d) fun v => v < d ∧ 0 < claimProb t tv d v

theorem exact_tol : Arith.lt (Arith.lit 1 67108864 : Ex) (Arith.abs (FP.fin 1 -. Arith.ofNat 1)) = false := by
  have h0 : (FP.fin 1 -. Arith.ofNat 1 : Ex) = fin 0 := by
    show FNum.fin ((1:ℝ) + -((1 : ℕ) : ℝ)) = _
    simp; rfl
  rw [h0]
  show FNum.lt (.fin (((1 : ℤ) : ℝ) / ((67108864 : ℕ) : ℝ))) (.fin |0|) = false
  simp only [FNum.lt, FNum.toEReal, decide_eq_false_iff_not, not_lt, EReal.coe_le_coe_iff]
  norm_num

theorem generateClaim_sat (g : Rng Ex) (hg : UnitDraws g) (t : ℝ) (h0 : 0 ≤ t) (h1 : t ≤ 1)
    (d : Nat) (hd : 2 ≤ d) : Samples g d t := by
  intro tv htv
  have hw : claimWeights (FP.fin t : Ex) tv d = (weightsR t tv d).map FP.fin := claimWeights_fin t tv d hd
  unfold generateClaim
  rw [hw]
  have hs := weightsR_sum t tv d hd htv
  refine (choice_sat g hg _ (weightsR_nonneg t tv d hd h0 h1) 1 1 ?_ exact_tol one_pos ?_).mono ?_
  · have := kahan_fin (weightsR t tv d)
    rw [hs] at this
    exact this
  · have := foldl_sum (weightsR t tv d) 0
    rw [hs, zero_add] at this
    exact this
  · rintro v ⟨x, hx, hpos⟩
    rw [weightsR_get t tv d v htv] at hx
    split at hx
    · rename_i h
      simp only [Option.some.injEq] at hx
      exact ⟨h, hx ▸ hpos⟩
    · cases hx

/-- Which numbers lead to which index. -/
theorem rcum_index (acc u : ℝ) (p : List ℝ) (hp : ∀ x ∈ p, 0 ≤ x) (h1 : acc ≤ u) (v : Nat) (hv : v < p.length) :
    ((rcum acc p).takeWhile fun c => decide (c ≤ u)).length = v ↔
      acc + (p.take v).sum ≤ u ∧ u < acc + (p.take (v + 1)).sum := by
  induction p generalizing acc v with
  | nil => simp at hv
  | cons x p ih =>
    have hx := hp x (by simp)
    have hp' : ∀ y ∈ p, 0 ≤ y := fun y hy => hp y (by simp [hy])
    simp only [rcum, List.takeWhile_cons]
    by_cases h : acc + x ≤ u
    · simp only [h, decide_true, if_true, List.length_cons]
      cases v with
      | zero =>
        simp only [List.take_zero, List.sum_nil, add_zero, List.take_succ_cons, List.sum_cons, zero_add]
        constructor
        · intro e; simp at e
        · rintro ⟨-, e⟩; linarith
      | succ v =>
        have := ih (acc + x) hp' h v (by simpa using hv)
        rw [Nat.add_right_cancel_iff, this]
        rw [List.take_succ_cons, List.take_succ_cons, List.sum_cons, List.sum_cons, ← add_assoc, ← add_assoc]
    · simp only [h, decide_false, Bool.false_eq_true, if_false, List.length_nil]
      cases v with
      | zero =>
        simp only [List.take_zero, List.sum_nil, add_zero, List.take_succ_cons, List.sum_cons, zero_add, true_iff]
        exact ⟨h1, not_le.1 h⟩
      | succ v =>
        constructor
        · intro e; simp at e
        · rintro ⟨e, -⟩
          exfalso
          apply h
          simp only [List.take_succ_cons, List.sum_cons] at e
          have : 0 ≤ (p.take v).sum := List.sum_nonneg fun y hy => hp' y (List.mem_of_mem_take hy)
          linarith

/-! ### The matrix -/

/-- A matrix being filled: shape, and every entry possible. -/
structure Good (n m : Nat) (ok : Nat → Nat → Nat → Prop) (sv : Grid Nat) : Prop where
  rows : sv.length = n
  cols : ∀ row ∈ sv, row.length = m
  entries : ∀ i j v, Holds sv i j v → ok i j v

/-- Cells stay filled. -/
def Keeps (sv sv' : Grid Nat) : Prop := ∀ i j, Filled sv i j → Filled sv' i j

theorem Keeps.refl (sv : Grid Nat) : Keeps sv sv := fun _ _ h => h
theorem Keeps.trans {a b c : Grid Nat} (h : Keeps a b) (h' : Keeps b c) : Keeps a c :=
  fun i j x => h' i j (h i j x)

theorem holds_put (sv : Grid Nat) (i j v i' j' v' : Nat) :
    Holds (Grid.put sv i j v) i' j' v' ↔
      (i' = i ∧ j' = j ∧ v' = v ∧ ∃ row, sv[i]? = some row ∧ j < row.length) ∨
      (¬ (i' = i ∧ j' = j) ∧ Holds sv i' j' v') := by
  unfold Holds Grid.put
  rw [List.getElem?_modify]
  by_cases hi : i = i'
  · subst hi
    cases hr : sv[i]? with
    | none => simp
    | some row =>
      by_cases hj : j = j'
      · subst hj
        by_cases hl : j < row.length
        · simp [hl]; tauto
        · simp [hl]
      · have : ¬ (j' = j) := fun h => hj h.symm
        simp [hj, this]
  · have hi' : ¬ (i' = i) := fun h => hi h.symm
    simp [hi, hi']

theorem good_put {n m : Nat} {ok : Nat → Nat → Nat → Prop} {sv : Grid Nat} (h : Good n m ok sv)
    {i j v : Nat} (hi : i < n) (hj : j < m) (hok : ok i j v) :
    Good n m ok (Grid.put sv i j v) ∧ Keeps sv (Grid.put sv i j v) ∧
      Filled (Grid.put sv i j v) i j := by
  have hrow : ∃ row, sv[i]? = some row ∧ j < row.length := by
    have hi' : i < sv.length := by rw [h.rows]; exact hi
    exact ⟨sv[i], List.getElem?_eq_getElem hi', by rw [h.cols _ (List.getElem_mem hi')]; exact hj⟩
  have hf : Filled (Grid.put sv i j v) i j := ⟨v, (holds_put ..).2 (Or.inl ⟨rfl, rfl, rfl, hrow⟩)⟩
  refine ⟨⟨by simp [Grid.put, h.rows], ?_, ?_⟩, ?_, hf⟩
  · intro row hr
    unfold Grid.put at hr
    obtain ⟨k, hk⟩ := List.mem_iff_getElem?.1 hr
    rw [List.getElem?_modify] at hk
    obtain ⟨r, hr', e⟩ := Option.map_eq_some_iff.1 hk
    have := h.cols r (List.mem_of_getElem? hr')
    rw [← e]
    split <;> simp [this]
  · intro i' j' v' hh
    rcases (holds_put ..).1 hh with ⟨rfl, rfl, rfl, -⟩ | ⟨-, hh⟩
    · exact hok
    · exact h.entries _ _ _ hh
  · rintro i' j' ⟨v', hv'⟩
    by_cases he : i' = i ∧ j' = j
    · obtain ⟨rfl, rfl⟩ := he; exact hf
    · exact ⟨v', (holds_put ..).2 (Or.inr ⟨he, hv'⟩)⟩

section
variable {R : Rounding} (g : Rng (FP R)) (hg : UnitDraws g) (trust : List ℝ) (tvs : List Nat) (d : Nat)
  (prob : FP R) (ht : ∀ t ∈ trust, Samples g d t) (htv : ∀ tv ∈ tvs, tv < d)

/-- Claims that source `i` can make about variable `j`. -/
def Possible (i j v : Nat) : Prop :=
  ∃ t tv, trust[i]? = some t ∧ tvs[j]? = some tv ∧ v < d ∧ 0 < claimProb t tv d v

theorem sample_sat : UnitDraws g → Sat g.sample fun u => ∃ x : ℝ, u = FP.fin x ∧ 0 ≤ x ∧ x < 1 :=
  fun hg k => ⟨g.unit k, k + 1, rfl, hg k⟩

theorem randint_sat (n : Int) (hn : 0 < n) : Sat (g.randint n) fun i => (i : Int) < n := by
  intro k
  refine ⟨g.int k % n.toNat, k + 1, ?_, ?_⟩
  · unfold Rng.randint
    rw [if_neg (by omega)]
  · have := Nat.mod_lt (g.int k) (show 0 < n.toNat by omega)
    omega

theorem randints_sat (n : Int) (hn : 0 < n) (m : Nat) :
    Sat (g.randints n m) fun xs => xs.length = m ∧ ∀ x ∈ xs, (x : Int) < n := by
  induction m with
  | zero => exact Sat.pure ⟨rfl, by simp⟩
  | succ m ih =>
    refine Sat.bind (randint_sat g n hn) fun x hx => Sat.bind ih fun xs hxs => Sat.pure ?_
    refine ⟨by simp [hxs.1], ?_⟩
    intro y hy
    rcases List.mem_cons.1 hy with rfl | hy
    · exact hx
    · exact hxs.2 y hy

include hg ht htv in
theorem sources_sat (var tv : Nat) (hvar : tvs[var]? = some tv)
    (E : List (Nat × FP R)) (hE : ∀ p ∈ E, ∃ t, trust[p.1]? = some t ∧ p.2 = FP.fin t)
    (acc : Bool × Grid Nat) (hacc : Good trust.length tvs.length (Possible trust tvs d) acc.2)
    (hflag : acc.1 = true → ∃ i, Filled acc.2 i var) :
    Sat (synthSources g prob d var tv E acc) fun acc' =>
      Good trust.length tvs.length (Possible trust tvs d) acc'.2 ∧ Keeps acc.2 acc'.2 ∧
      (acc'.1 = true → ∃ i, Filled acc'.2 i var) ∧
      (prob = FP.fin 1 → ∀ p ∈ E, Filled acc'.2 p.1 var) := by
  induction E generalizing acc with
  | nil => exact Sat.pure ⟨hacc, Keeps.refl _, hflag, by simp⟩
  | cons p E ih =>
    obtain ⟨s, ts⟩ := p
    obtain ⟨t, hts, hpt⟩ := hE (s, ts) (by simp)
    simp only at hts hpt
    subst hpt
    have htb := ht t (List.mem_of_getElem? hts)
    have hs : s < trust.length := (List.getElem?_eq_some_iff.1 hts).1
    have hvl : var < tvs.length := (List.getElem?_eq_some_iff.1 hvar).1
    refine Sat.bind (sample_sat g hg) ?_
    rintro u ⟨x, rfl, hx0, hx1⟩
    split
    · refine Sat.bind (htb tv (htv tv (List.mem_of_getElem? hvar))) ?_
      intro v hv
      obtain ⟨g1, g2, g3⟩ := good_put hacc hs hvl (v := v) ⟨t, tv, hts, hvar, hv⟩
      refine (ih (fun q hq => hE q (by simp [hq])) (true, Grid.put acc.2 s var v) g1
        (fun _ => ⟨s, g3⟩)).mono ?_
      rintro acc' ⟨k1, k2, k3, k4⟩
      refine ⟨k1, g2.trans k2, k3, ?_⟩
      intro hp q hq
      rcases List.mem_cons.1 hq with rfl | hq
      · exact k2 _ _ g3
      · exact k4 hp q hq
    · rename_i hnot
      refine (ih (fun q hq => hE q (by simp [hq])) acc hacc hflag).mono ?_
      rintro acc' ⟨k1, k2, k3, k4⟩
      refine ⟨k1, k2, k3, ?_⟩
      intro hp
      exfalso
      apply hnot
      rw [hp, FP.le_fin]
      simpa using hx1.le

include hg ht htv in
theorem ensure_sat (hne : trust ≠ []) (var tv : Nat) (hvar : tvs[var]? = some tv)
    (acc : Bool × Grid Nat) (hacc : Good trust.length tvs.length (Possible trust tvs d) acc.2)
    (hflag : acc.1 = true → ∃ i, Filled acc.2 i var) :
    Sat (synthEnsure g (trust.map FP.fin) d var tv acc) fun sv =>
      Good trust.length tvs.length (Possible trust tvs d) sv ∧ Keeps acc.2 sv ∧
      ∃ i, Filled sv i var := by
  unfold synthEnsure
  split
  · rename_i h
    exact Sat.pure ⟨hacc, Keeps.refl _, hflag h⟩
  · have hpos : (0 : Int) < ((trust.map FP.fin : Vec (FP R)).length : Int) := by
      have := List.length_pos_iff.2 hne
      simpa using this
    refine Sat.bind (randint_sat g _ hpos) ?_
    intro s hs
    have hs' : s < trust.length := by
      have : (s : Int) < (trust.length : Int) := by simpa using hs
      exact_mod_cast this
    have hat : Vec.at (trust.map FP.fin : Vec (FP R)) s = FP.fin trust[s] := by
      simp [Vec.at, List.getD_eq_getElem?_getD, hs']
    have htb := ht _ (List.getElem_mem hs')
    rw [hat]
    refine Sat.bind (htb tv (htv tv (List.mem_of_getElem? hvar))) ?_
    intro v hv
    obtain ⟨g1, g2, g3⟩ := good_put hacc hs' (List.getElem?_eq_some_iff.1 hvar).1 (v := v)
      ⟨_, tv, List.getElem?_eq_getElem hs', hvar, hv⟩
    exact Sat.pure ⟨g1, g2, s, g3⟩

include hg ht htv in
theorem vars_sat (hne : trust ≠ []) (E : List (Nat × Nat)) (hE : ∀ p ∈ E, tvs[p.1]? = some p.2)
    (sv : Grid Nat) (hsv : Good trust.length tvs.length (Possible trust tvs d) sv) :
    Sat (synthVars g (trust.map FP.fin) prob d E sv) fun sv' =>
      Good trust.length tvs.length (Possible trust tvs d) sv' ∧ Keeps sv sv' ∧
      (∀ p ∈ E, ∃ i, Filled sv' i p.1) ∧
      (prob = FP.fin 1 → ∀ p ∈ E, ∀ i < trust.length, Filled sv' i p.1) := by
  induction E generalizing sv with
  | nil => exact Sat.pure ⟨hsv, Keeps.refl _, by simp, by simp⟩
  | cons p E ih =>
    obtain ⟨var, tv⟩ := p
    have hvar : tvs[var]? = some tv := hE (var, tv) (by simp)
    refine Sat.bind (sources_sat g hg trust tvs d prob ht htv var tv hvar (enum (trust.map FP.fin))
      ?_ (false, sv) hsv (by simp)) ?_
    · intro p hp
      have := mem_enum'.1 hp
      rw [List.getElem?_map] at this
      obtain ⟨t, h1, h2⟩ := Option.map_eq_some_iff.1 this
      exact ⟨t, h1, h2.symm⟩
    rintro acc ⟨a1, a2, a3, a4⟩
    refine Sat.bind (ensure_sat g hg trust tvs d ht htv hne var tv hvar acc a1 a3) ?_
    rintro sv1 ⟨b1, b2, b3⟩
    refine (ih (fun q hq => hE q (by simp [hq])) sv1 b1).mono ?_
    rintro sv' ⟨c1, c2, c3, c4⟩
    refine ⟨c1, (Keeps.trans a2 b2).trans c2, ?_, ?_⟩
    · intro q hq
      rcases List.mem_cons.1 hq with rfl | hq
      · obtain ⟨i, hi⟩ := b3
        exact ⟨i, c2 _ _ hi⟩
      · exact c3 q hq
    · intro hp q hq i hi
      rcases List.mem_cons.1 hq with rfl | hq
      · apply c2; apply b2
        exact a4 hp (i, FP.fin trust[i]) (mem_enum'.2 (by simp [hi]))
      · exact c4 hp q hq i hi

include hg ht htv in
theorem rows_sat (hm : tvs ≠ []) (L : List Nat) (hL : ∀ i ∈ L, i < trust.length)
    (sv : Grid Nat) (hsv : Good trust.length tvs.length (Possible trust tvs d) sv) :
    Sat (synthRows g (trust.map FP.fin) tvs d L sv) fun sv' =>
      Good trust.length tvs.length (Possible trust tvs d) sv' ∧ Keeps sv sv' ∧
      (∀ i ∈ L, ∃ j, Filled sv' i j) := by
  induction L generalizing sv with
  | nil => exact Sat.pure ⟨hsv, Keeps.refl _, by simp⟩
  | cons i L ih =>
    have hi := hL i (by simp)
    simp only [synthRows]
    split
    · have hpos : (0 : Int) < (tvs.length : Int) := by
        have := List.length_pos_iff.2 hm
        exact_mod_cast this
      refine Sat.bind (randint_sat g _ hpos) ?_
      intro j hj
      have hj' : j < tvs.length := by exact_mod_cast hj
      have hat : Vec.at (trust.map FP.fin : Vec (FP R)) i = FP.fin trust[i] := by
        simp [Vec.at, List.getD_eq_getElem?_getD, hi]
      have hget : tvs.getD j 0 = tvs[j] := by simp [List.getD_eq_getElem?_getD, hj']
      have htb := ht _ (List.getElem_mem hi)
      rw [hat, hget]
      refine Sat.bind (htb _ (htv _ (List.getElem_mem hj'))) ?_
      intro v hv
      obtain ⟨g1, g2, g3⟩ := good_put hsv hi hj' (v := v)
        ⟨_, _, List.getElem?_eq_getElem hi, List.getElem?_eq_getElem hj', hv⟩
      refine (ih (fun q hq => hL q (by simp [hq])) _ g1).mono ?_
      rintro sv' ⟨c1, c2, c3⟩
      refine ⟨c1, g2.trans c2, ?_⟩
      intro q hq
      rcases List.mem_cons.1 hq with rfl | hq
      · exact ⟨j, c2 _ _ g3⟩
      · exact c3 q hq
    · rename_i hnot
      have hfill : ∃ j, Filled sv i j := by
        have hi' : i < sv.length := by rw [hsv.rows]; exact hi
        have : sv.getD i [] = sv[i] := by simp [List.getD_eq_getElem?_getD, hi']
        rw [this, Bool.not_eq_true, List.all_eq_false] at hnot
        obtain ⟨c, hc, hcn⟩ := hnot
        obtain ⟨j, hj⟩ := List.mem_iff_getElem?.1 hc
        cases c with
        | none => simp at hcn
        | some v => exact ⟨j, v, _, List.getElem?_eq_getElem hi', hj⟩
      refine (ih (fun q hq => hL q (by simp [hq])) sv hsv).mono ?_
      rintro sv' ⟨c1, c2, c3⟩
      refine ⟨c1, c2, ?_⟩
      intro q hq
      rcases List.mem_cons.1 hq with rfl | hq
      · obtain ⟨j, hj⟩ := hfill
        exact ⟨j, c2 _ _ hj⟩
      · exact c3 q hq
end

end TD
