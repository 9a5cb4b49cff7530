import Verif.Lemmas.Rounded
import Verif.Spec.Range

/-! Signs and ranges of rounded computations. -/

namespace TD
open Spec
attribute [-instance] instBEqProd

section
variable {R : Rounding}

/-- NaN, infinity or a nonnegative number. -/
inductive NN : FNum → Prop
  | nan : NN .nan
  | inf : NN .pinf
  | fin (y : ℝ) (h : 0 ≤ y) : NN (.fin y)

theorem nn_iff (x : FP R) : NonnegOrNan x ↔ NN x := by
  have key : ∀ x : FNum, (x = .nan ∨ 0 ≤ x.toEReal) ↔ NN x := by
    intro x
    cases x with
    | nan => exact ⟨fun _ => .nan, fun _ => .inl rfl⟩
    | pinf => exact ⟨fun _ => .inf, fun _ => .inr (by simp [FNum.toEReal])⟩
    | ninf => exact ⟨by rintro (h | h) <;> simp [FNum.toEReal] at h, nofun⟩
    | fin y =>
      constructor
      · rintro (h | h)
        · cases h
        · exact .fin y (by simpa [FNum.toEReal] using h)
      · rintro ⟨⟩
        rename_i h
        exact .inr (by simpa [FNum.toEReal] using h)
  exact key x

/-- NaN or in `[0, 1]`. -/
inductive UN : FNum → Prop
  | nan : UN .nan
  | fin (y : ℝ) (h : 0 ≤ y) (h1 : y ≤ 1) : UN (.fin y)

theorem un_iff (x : FP R) : UnitOrNan x ↔ UN x := by
  have key : ∀ x : FNum, (x = .nan ∨ ∃ y, x = .fin y ∧ 0 ≤ y ∧ y ≤ 1) ↔ UN x := by
    intro x
    constructor
    · rintro (rfl | ⟨y, rfl, h, h1⟩)
      · exact .nan
      · exact .fin y h h1
    · rintro (_ | ⟨y, h, h1⟩)
      · exact .inl rfl
      · exact .inr ⟨y, rfl, h, h1⟩
  exact key x

theorem UN.nn {x : FNum} (h : UN x) : NN x := by
  cases h with
  | nan => exact .nan
  | fin y h _ => exact .fin y h

theorem nn_rnd {x : ℝ} (h : 0 ≤ x) : NN (R.rnd x) := by
  have m := R.mono 0 x h
  rw [R.zero] at m
  cases e : R.rnd x with
  | nan => exact .nan
  | pinf => exact .inf
  | ninf => rw [e] at m; simp [FNum.toEReal] at m
  | fin y => rw [e] at m; exact .fin y (by simpa [FNum.toEReal] using m)

theorem nn_faithful {v w : ℝ} (hw : FaithfulTo R.rnd v w) (h : 0 ≤ v) : NN (R.rnd w) := by
  have m := (hw 0 R.zero).1 h
  cases e : R.rnd w with
  | nan => exact .nan
  | pinf => exact .inf
  | ninf => rw [e] at m; simp [FNum.toEReal] at m
  | fin y => rw [e] at m; exact .fin y (by simpa [FNum.toEReal] using m)

theorem un_rnd {x : ℝ} (h : 0 ≤ x) (h1 : x ≤ 1) : UN (R.rnd x) := by
  obtain ⟨y, hy, -, h0, h1⟩ := rnd_between (rep_zero (R := R)) rep_one h h1
  rw [hy]; exact .fin y h0 h1

theorem nn_add {x y : FNum} (hx : NN x) (hy : NN y) : NN (FNum.add R x y) := by
  cases hx <;> cases hy <;> simp only [FNum.add] <;> first | exact .nan | exact .inf | skip
  exact nn_rnd (by linarith)

theorem nn_mul {x y : FNum} (hx : NN x) (hy : NN y) : NN (FNum.mul R x y) := by
  cases hx <;> cases hy <;> simp only [FNum.mul] <;> first | exact .nan | exact .inf | skip
  · rename_i y h
    split
    · exact .nan
    · rename_i h'
      rw [FNum.infOf, if_pos (lt_of_le_of_ne h (Ne.symm h'))]; exact .inf
  · rename_i y h
    split
    · exact .nan
    · rename_i h'
      rw [FNum.infOf, if_pos (lt_of_le_of_ne h (Ne.symm h'))]; exact .inf
  · exact nn_rnd (mul_nonneg ‹_› ‹_›)

theorem nn_div {x y : FNum} (hx : NN x) (hy : NN y) : NN (FNum.div R x y) := by
  cases hx <;> cases hy <;> simp only [FNum.div] <;> first | exact .nan | exact .fin 0 le_rfl | skip
  · rename_i y h
    rw [if_neg (by linarith)]; exact .inf
  · rename_i x hx y hy
    split
    · split
      · exact .nan
      · rename_i h'
        rw [FNum.infOf, if_pos (lt_of_le_of_ne hx (Ne.symm h'))]; exact .inf
    · exact nn_rnd (div_nonneg hx hy)

theorem nn_pow {x : FNum} (hx : NN x) (y : FNum) : NN (FNum.pow R x y) := by
  have h1 : NN (.fin 1) := .fin 1 zero_le_one
  have h0 : NN (.fin 0) := .fin 0 le_rfl
  cases hx with
  | nan => cases y <;> simp only [FNum.pow] <;> first | exact .nan | (split <;> first | exact h1 | exact .nan)
  | inf =>
    cases y with
    | fin y =>
      simp only [FNum.pow]
      split
      · exact .inf
      · split
        · exact h1
        · exact h0
    | nan => exact .nan
    | pinf => exact .inf
    | ninf => exact h0
  | fin x hx =>
    cases y with
    | fin y =>
      simp only [FNum.pow, FNum.powFin]
      split
      · exact nn_faithful (R.pow_faithful _ _) (Real.rpow_nonneg hx y)
      · split
        · exact h1
        · split
          · split
            · exact h0
            · exact .inf
          · exfalso
            rename_i a b c
            exact a (lt_of_le_of_ne hx (Ne.symm c))
    | nan => simp only [FNum.pow]; split <;> first | exact h1 | exact .nan
    | pinf => simp only [FNum.pow]; split <;> first | exact h1 | (split <;> first | exact h0 | exact .inf)
    | ninf => simp only [FNum.pow]; split <;> first | exact h1 | (split <;> first | exact h0 | exact .inf)

theorem nn_exp (x : FNum) : NN (FNum.exp R x) := by
  cases x with
  | nan => exact .nan
  | pinf => exact .inf
  | ninf => exact .fin 0 le_rfl
  | fin x => exact nn_faithful (R.exp_faithful _) (Real.exp_pos x).le

theorem nn_sq (x : FNum) : NN (FNum.mul R x x) := by
  cases x with
  | nan => exact .nan
  | pinf => exact .inf
  | ninf => exact .inf
  | fin x => exact nn_rnd (mul_self_nonneg x)

theorem nn_ofNat (n : Nat) : NN (Arith.ofNat n : FP R) := nn_rnd (Nat.cast_nonneg n)

theorem nn_half : NN (Arith.lit 1 2 : FP R) := nn_rnd (by norm_num)

/-- Infinity or a number from 1 on, or NaN. -/
inductive GE1 : FNum → Prop
  | nan : GE1 .nan
  | inf : GE1 .pinf
  | fin (y : ℝ) (h : 1 ≤ y) : GE1 (.fin y)

theorem ge1_rnd {x : ℝ} (h : 1 ≤ x) : GE1 (R.rnd x) := by
  have m := R.mono 1 x h
  rw [R.one] at m
  cases e : R.rnd x with
  | nan => exact .nan
  | pinf => exact .inf
  | ninf => rw [e] at m; exact absurd (le_bot_iff.1 m) (EReal.coe_ne_bot 1)
  | fin y => rw [e] at m; exact .fin y (by simpa [FNum.toEReal, ← EReal.coe_one] using m)

theorem GE1.nn {x : FNum} (h : GE1 x) : NN x := by
  cases h with
  | nan => exact .nan
  | inf => exact .inf
  | fin y h => exact .fin y (by linarith)

theorem ge1_add {x y : FNum} (hx : GE1 x) (hy : NN y) : GE1 (FNum.add R x y) := by
  cases hx <;> cases hy <;> simp only [FNum.add] <;> first | exact .nan | exact .inf | skip
  exact ge1_rnd (by linarith)

theorem ge1_add' {x y : FNum} (hx : NN x) (hy : GE1 y) : GE1 (FNum.add R x y) := by
  cases hx <;> cases hy <;> simp only [FNum.add] <;> first | exact .nan | exact .inf | skip
  exact ge1_rnd (by linarith)

theorem nn_log {x : FNum} (hx : GE1 x) : NN (FNum.log R x) := by
  cases hx with
  | nan => exact .nan
  | inf => exact .inf
  | fin y h =>
    simp only [FNum.log]
    rw [if_neg (by linarith), if_neg (by linarith)]
    exact nn_faithful (R.log_faithful _ (by linarith)) (Real.log_nonneg h)

/-- `1 / x` for `x` from 1 on. -/
theorem un_inv {x : FNum} (hx : GE1 x) : UN (FNum.div R (.fin 1) x) := by
  cases hx with
  | nan => exact .nan
  | inf => exact .fin 0 le_rfl zero_le_one
  | fin y h =>
    simp only [FNum.div]
    rw [if_neg (by linarith)]
    exact un_rnd (by positivity) (by rw [div_le_one (by linarith)]; exact h)

/-- Quotients of a smaller by a larger number. -/
theorem un_div {x m : FNum} (hx : NN x) (hm : NN m) (h : x = .nan ∨ m = .nan ∨ x.toEReal ≤ m.toEReal) :
    UN (FNum.div R x m) := by
  cases hx with
  | nan => exact .nan
  | inf =>
    cases hm with
    | nan => exact .nan
    | inf => exact .nan
    | fin y hy => rcases h with h | h | h <;> simp [FNum.toEReal] at h
  | fin x hx =>
    cases hm with
    | nan => exact .nan
    | inf => exact .fin 0 le_rfl zero_le_one
    | fin y hy =>
      have hle : x ≤ y := by
        rcases h with h | h | h
        · cases h
        · cases h
        · simpa [FNum.toEReal] using h
      simp only [FNum.div]
      split
      · rename_i h0
        rw [if_pos (by linarith)]; exact .nan
      · rename_i h0
        have : 0 < y := lt_of_le_of_ne hy (Ne.symm h0)
        exact un_rnd (div_nonneg hx hy) (by rw [div_le_one this]; exact hle)

/-! ### Maximum -/

theorem maxFold_nn (xs : List (FP R)) (m : FP R) (hm : NN m) (hxs : ∀ x ∈ xs, NN x) :
    ∃ r, xs.foldl (fun m y => if Arith.lt m y then y else m) m = r ∧ NN r ∧ (m = FNum.nan → r = FNum.nan) ∧
      (m ≠ FNum.nan → r ≠ FNum.nan ∧ FNum.toEReal m ≤ FNum.toEReal r ∧
        ∀ x ∈ xs, x = FNum.nan ∨ FNum.toEReal x ≤ FNum.toEReal r) := by
  induction xs generalizing m with
  | nil => exact ⟨m, rfl, hm, fun h => h, fun h => ⟨h, le_rfl, by simp⟩⟩
  | cons x xs ih =>
    have hx := hxs x (by simp)
    have hlt : Arith.lt m x = FNum.lt m x := rfl
    simp only [List.foldl_cons]
    by_cases hl : Arith.lt m x = true
    · rw [if_pos hl]
      obtain ⟨r, h1, h2, h3, h4⟩ := ih x hx (fun y hy => hxs y (by simp [hy]))
      have hmx : m ≠ FNum.nan ∧ x ≠ FNum.nan ∧ FNum.toEReal m < FNum.toEReal x := by
        rw [hlt] at hl
        have key : ∀ a b : FNum, FNum.lt a b = true → a ≠ .nan ∧ b ≠ .nan ∧ a.toEReal < b.toEReal := by
          intro a b h
          cases a <;> cases b <;> simp_all [FNum.lt]
        exact key _ _ hl
      obtain ⟨g1, g2, g3⟩ := h4 hmx.2.1
      refine ⟨r, h1, h2, fun h => absurd h hmx.1, fun _ => ⟨g1, hmx.2.2.le.trans g2, ?_⟩⟩
      intro y hy
      rcases List.mem_cons.1 hy with rfl | hy
      · exact .inr g2
      · exact g3 y hy
    · rw [if_neg hl]
      obtain ⟨r, h1, h2, h3, h4⟩ := ih m hm (fun y hy => hxs y (by simp [hy]))
      refine ⟨r, h1, h2, h3, fun h => ?_⟩
      obtain ⟨g1, g2, g3⟩ := h4 h
      refine ⟨g1, g2, ?_⟩
      intro y hy
      rcases List.mem_cons.1 hy with rfl | hy
      · rw [hlt] at hl
        have key : ∀ a b : FNum, FNum.lt a b ≠ true → a ≠ .nan → b = .nan ∨ b.toEReal ≤ a.toEReal := by
          intro a b h
          cases a <;> cases b <;> simp_all [FNum.lt]
        rcases key _ _ hl h with h | h
        · exact .inl h
        · exact .inr (h.trans g2)
      · exact g3 y hy

/-- All entries satisfy `P`. -/
def All (P : FNum → Prop) (v : Vec (FP R)) : Prop := ∀ x ∈ v, P x

theorem all_normalise {v w : Vec (FP R)} (h : All NN v) (hw : normalise v = .ok w) : All UN w := by
  cases v with
  | nil => cases hw
  | cons a as =>
    obtain ⟨m, h1, h2, h3, h4⟩ := maxFold_nn as a (h a (by simp)) (fun x hx => h x (by simp [hx]))
    simp only [normalise, pyMax, h1, bind, Except.bind, pure, Except.pure, Except.ok.injEq] at hw
    subst hw
    intro y hy
    obtain ⟨x, hx, rfl⟩ := List.mem_map.1 hy
    refine un_div (R := R) (h x hx) h2 ?_
    by_cases ha : a = FNum.nan
    · exact .inr (.inl (h3 ha))
    · obtain ⟨g1, g2, g3⟩ := h4 ha
      rcases List.mem_cons.1 hx with rfl | hx
      · exact .inr (.inr g2)
      · rcases g3 x hx with h | h
        · exact .inl h
        · exact .inr (.inr h)

theorem All.mono {P Q : FNum → Prop} {v : Vec (FP R)} (h : All P v) (hPQ : ∀ x, P x → Q x) : All Q v :=
  fun x hx => hPQ _ (h x hx)

theorem all_at {v : Vec (FP R)} (h : All NN v) (j : Nat) : NN (v.at j) := by
  unfold Vec.at
  rw [List.getD_eq_getElem?_getD]
  cases e : v[j]? with
  | none => exact nn_ofNat 0
  | some x => exact h x (List.mem_of_getElem? e)

theorem all_replicate {P : FNum → Prop} {x : FP R} (h : P x) (n : Nat) : All P (List.replicate n x : Vec (FP R)) := by
  intro y hy
  rw [(List.mem_replicate.1 hy).2]; exact h

theorem all_map {v : Vec (FP R)} {P Q : FNum → Prop} {g : FP R → FP R} (h : All P v) (hg : ∀ x : FP R, P x → Q (g x)) :
    All Q (v.map g) := by
  intro y hy
  obtain ⟨x, hx, rfl⟩ := List.mem_map.1 hy
  exact hg x (h x hx)

theorem all_vzip {v w : Vec (FP R)} {P P' Q : FNum → Prop} {g : FP R → FP R → FP R} (hv : All P v) (hw : All P' w)
    (hg : ∀ x y : FP R, P x → P' y → Q (g x y)) : All Q (vzip g v w) := by
  unfold vzip
  induction v generalizing w with
  | nil => intro z hz; simp at hz
  | cons x v ih =>
    cases w with
    | nil => intro z hz; simp at hz
    | cons y w =>
      intro z hz
      rw [List.zipWith_cons_cons] at hz
      rcases List.mem_cons.1 hz with rfl | hz
      · exact hg x y (hv x (by simp)) (hw y (by simp))
      · exact ih (fun a ha => hv a (by simp [ha])) (fun a ha => hw a (by simp [ha])) z hz

/-! ### Matrices -/

/-- All stored entries satisfy `P`. -/
def Mat.All (P : FNum → Prop) (M : Mat (FP R)) : Prop := ∀ r ∈ M.rows, ∀ e ∈ r, P e.2

theorem foldl_nn {β : Type} (L : List β) (g : β → FP R) (a : FP R) (ha : NN a) (hg : ∀ b ∈ L, NN (g b)) :
    NN (L.foldl (fun (acc : FP R) b => (acc +. g b : FP R)) a : FP R) := by
  induction L generalizing a with
  | nil => exact ha
  | cons b L ih =>
    simp only [List.foldl_cons]
    exact ih _ (nn_add ha (hg b (by simp))) (fun c hc => hg c (by simp [hc]))

theorem Mat.All.mulVec {M : Mat (FP R)} (hM : M.All NN) {v : Vec (FP R)} (hv : TD.All NN v) :
    TD.All NN (M.mulVec v) := by
  intro y hy
  obtain ⟨r, hr, rfl⟩ := List.mem_map.1 hy
  exact foldl_nn r (fun e => e.2 *. v.at e.1) _ (nn_ofNat 0) fun e he => nn_mul (hM r hr e he) (all_at hv e.1)

theorem Mat.All.T {P : FNum → Prop} {M : Mat (FP R)} (hM : M.All P) : M.T.All P := by
  intro r hr e he
  simp only [Mat.T, List.mem_map] at hr
  obtain ⟨j, -, rfl⟩ := hr
  obtain ⟨p, hp, e'⟩ := List.mem_filterMap.1 he
  obtain ⟨v, hv, rfl⟩ := Option.map_eq_some_iff.1 e'
  have hrow : p.2 ∈ M.rows := by
    have := List.mem_map_of_mem (f := Prod.snd) hp
    rwa [enum_map_snd] at this
  have hmem : (j, v) ∈ p.2 := mem_of_lookup_some hv
  exact hM p.2 hrow (j, v) hmem

theorem Mat.All.scaleCols {M : Mat (FP R)} (hM : M.All NN) {v : Vec (FP R)} (hv : TD.All NN v) :
    (M.scaleCols v).All NN := by
  intro r hr e he
  simp only [Mat.scaleCols, List.mem_map] at hr
  obtain ⟨r', hr', rfl⟩ := hr
  obtain ⟨e', he', rfl⟩ := List.mem_map.1 he
  exact nn_mul (hM r' hr' e' he') (all_at hv _)

theorem Mat.All.scaleRows {M : Mat (FP R)} (hM : M.All NN) {v : Vec (FP R)} (hv : TD.All NN v) :
    (M.scaleRows v).All NN := by
  intro r hr e he
  simp only [Mat.scaleRows, List.mem_map] at hr
  obtain ⟨p, hp, rfl⟩ := hr
  obtain ⟨e', he', rfl⟩ := List.mem_map.1 he
  have hrow : p.2 ∈ M.rows := by
    have := List.mem_map_of_mem (f := Prod.snd) hp
    rwa [enum_map_snd] at this
  exact nn_mul (hM p.2 hrow e' he') (all_at hv _)

theorem Mat.all_ofFn {P : FNum → Prop} (nr nc : Nat) (g : Nat → Nat → Option (FP R))
    (h : ∀ i j x, g i j = some x → P x) : (Mat.ofFn nr nc g).All P := by
  intro r hr e he
  simp only [Mat.ofFn, List.mem_map] at hr
  obtain ⟨i, -, rfl⟩ := hr
  obtain ⟨j, -, e'⟩ := List.mem_filterMap.1 he
  obtain ⟨v, hv, rfl⟩ := Option.map_eq_some_iff.1 e'
  exact h i j v hv

/-! ### Monotone sums -/

/-- NaN, infinity, or a nonnegative number that is not changed by rounding. -/
inductive NR (R : Rounding) : FNum → Prop
  | nan : NR R .nan
  | inf : NR R .pinf
  | fin (y : ℝ) (h : 0 ≤ y) (hr : Rep R y) : NR R (.fin y)

theorem NR.nn {x : FNum} (h : NR R x) : NN x := by
  cases h with
  | nan => exact .nan
  | inf => exact .inf
  | fin y h _ => exact .fin y h

theorem nr_rnd {x : ℝ} (h : 0 ≤ x) : NR R (R.rnd x) := by
  have hn := nn_rnd (R := R) h
  cases e : R.rnd x with
  | nan => exact .nan
  | pinf => exact .inf
  | ninf => rw [e] at hn; cases hn
  | fin y => rw [e] at hn; cases hn; exact .fin y ‹_› (R.idem x y e)

theorem nr_faithful {v w : ℝ} (hw : FaithfulTo R.rnd v w) (h : 0 ≤ v) : NR R (R.rnd w) := by
  have hn := nn_faithful (R := R) hw h
  cases e : R.rnd w with
  | nan => exact .nan
  | pinf => exact .inf
  | ninf => rw [e] at hn; cases hn
  | fin y => rw [e] at hn; cases hn; exact .fin y ‹_› (R.idem w y e)

theorem nr_zero : NR R (.fin 0) := .fin 0 le_rfl R.zero

theorem nr_add {x y : FNum} (hx : NN x) (hy : NN y) : NR R (FNum.add R x y) := by
  cases hx <;> cases hy <;> simp only [FNum.add] <;> first | exact .nan | exact .inf | skip
  exact nr_rnd (by linarith)

theorem nr_one_mul {x : FNum} (hx : NR R x) : FNum.mul R (.fin 1) x = x := by
  cases hx with
  | nan => rfl
  | inf => simp [FNum.mul, FNum.infOf]
  | fin y h hr => simp only [FNum.mul, one_mul]; exact hr

/-- Not larger, or NaN involved. -/
def Le (x y : FNum) : Prop := x = .nan ∨ y = .nan ∨ x.toEReal ≤ y.toEReal

theorem Le.refl (x : FNum) : Le x x := .inr (.inr le_rfl)

theorem le_inf (x : FNum) : Le x .pinf := .inr (.inr le_top)

theorem le_add_same {x y z : FNum} (hx : NN x) (hy : NN y) (hz : NN z) (h : Le x y) :
    Le (FNum.add R x z) (FNum.add R y z) := by
  cases hz with
  | nan => exact .inl (by cases hx <;> rfl)
  | inf => cases hx <;> cases hy <;> first | exact .inl rfl | exact .inr (.inl rfl) | exact Le.refl _
  | fin z hz =>
    cases hx with
    | nan => exact .inl rfl
    | inf =>
      cases hy with
      | nan => exact .inr (.inl rfl)
      | inf => exact Le.refl _
      | fin y hy => rcases h with h | h | h <;> simp [FNum.toEReal] at h
    | fin x hx =>
      cases hy with
      | nan => exact .inr (.inl rfl)
      | inf => exact le_inf _
      | fin y hy =>
        have hle : x ≤ y := by
          rcases h with h | h | h
          · cases h
          · cases h
          · simpa [FNum.toEReal] using h
        exact .inr (.inr (R.mono _ _ (by linarith)))

theorem le_add_right {x y z : FNum} (hy : NR R y) (hz : NN z) (h : Le x y) : Le x (FNum.add R y z) := by
  rcases h with h | h | h
  · exact .inl h
  · subst h; exact .inr (.inl rfl)
  · cases hy with
    | nan => exact .inr (.inl rfl)
    | inf => cases hz <;> first | exact .inr (.inl rfl) | exact le_inf _
    | fin y hy hr =>
      cases hz with
      | nan => exact .inr (.inl rfl)
      | inf => exact le_inf _
      | fin z hz =>
        refine .inr (.inr (h.trans ?_))
        have := R.mono y (y + z) (by linarith)
        rw [show R.rnd y = .fin y from hr] at this
        exact this

/-- Add `g b` if `p b`. -/
noncomputable def partStep {B : Type} (p : B → Bool) (g : B → FP R) (acc : FP R) (b : B) : FP R :=
  if p b then acc +. g b else acc

/-- Add `g b`. -/
noncomputable def fullStep {B : Type} (g : B → FP R) (acc : FP R) (b : B) : FP R := acc +. g b

/-- A sum over a part of a list is at most the sum over the list. -/
theorem part_le {B : Type} (L : List B) (p : B → Bool) (g : B → FP R) (hg : ∀ b ∈ L, NR R (g b)) (a a' : FP R)
    (ha : NR R a) (ha' : NR R a') (h : Le a a') :
    Le (L.foldl (partStep p g) a) (L.foldl (fullStep g) a') ∧
    NR R (L.foldl (partStep p g) a) ∧ NR R (L.foldl (fullStep g) a') := by
  induction L generalizing a a' with
  | nil => exact ⟨h, ha, ha'⟩
  | cons b L ih =>
    have hb := hg b (by simp)
    have hfull : NR R (fullStep g a' b) := nr_add ha'.nn hb.nn
    have h1 : NR R (partStep p g a b) ∧ Le (partStep p g a b) (fullStep g a' b) := by
      by_cases hp : p b = true
      · have e : partStep p g a b = fullStep g a b := if_pos hp
        rw [e]
        exact ⟨nr_add ha.nn hb.nn, le_add_same ha.nn ha'.nn hb.nn h⟩
      · have e : partStep p g a b = a := if_neg hp
        rw [e]
        exact ⟨ha, le_add_right ha' hb.nn h⟩
    exact ih (fun c hc => hg c (by simp [hc])) (partStep p g a b) (fullStep g a' b) h1.1 hfull h1.2

theorem nr_zero_add {x : FNum} (hx : NR R x) : FNum.add R (.fin 0) x = x := by
  cases hx with
  | nan => rfl
  | inf => rfl
  | fin y h hr => simp only [FNum.add, zero_add]; exact hr

theorem sum_nr (v : Vec (FP R)) (h : All NN v) : NR R (Arith.sum v : FP R) :=
  sum_induct v (NR R) (fun _ => nr_zero) (fun _ hx => nr_add (nr_zero (R := R)).nn (h _ hx)) fun _ _ hx hy => nr_add hx.nn hy.nn

theorem nn_fma {x y z : FNum} (hx : NN x) (hy : NN y) (hz : NN z) : NN (FNum.fma R x y z) :=
  nn_add (nn_mul (R := .exact) hx hy) hz

theorem dot_nn {A : Type} (as : List A) (g h : A → FP R) (hg : ∀ a ∈ as, NN (g a)) (hh : ∀ a ∈ as, NN (h a)) :
    NN (Arith.dot (as.map g) (as.map h) : FP R) := by
  obtain ⟨-, -, hd⟩ := dot_order_fp as g h (fun _ x => NN x) (fun _ => (nr_zero (R := R)).nn) (fun a ha => nn_mul (hg a ha) (hh a ha))
    (fun a l y hs hy => by
      have ha : a ∈ as := hs.subset (by simp)
      exact nn_fma (hg a ha) (hh a ha) hy) fun _ _ _ _ _ hx hy => nn_add hx hy
  exact hd

theorem add_comm_fnum (a y : FNum) : FNum.add R a y = FNum.add R y a := by
  cases a <;> cases y <;> simp [FNum.add, add_comm]

theorem le_add_left {x y z : FNum} (hy : NR R y) (hz : NN z) (h : Le x y) : Le x (FNum.add R z y) := by
  rw [add_comm_fnum]
  exact le_add_right hy hz h

theorem le_sum (v : Vec (FP R)) (h : All (NR R) v) {x : FP R} (hx : x ∈ v) : Le x (Arith.sum v : FP R) := by
  obtain ⟨l, hl, hs⟩ := sum_order_fp v id (fun l y => NR R y ∧ ∀ x ∈ l, Le x y) (fun _ => ⟨nr_zero, by simp⟩)
    (fun a ha => by
      refine ⟨nr_add (nr_zero (R := R)).nn (h a ha).nn, ?_⟩
      intro y hy
      rw [List.mem_singleton.1 hy]
      exact le_add_left (h a ha) (nr_zero (R := R)).nn (Le.refl _))
    (fun l m x y _ hx hy => by
      refine ⟨nr_add hx.1.nn hy.1.nn, fun z hz => ?_⟩
      rcases List.mem_append.1 hz with hz | hz
      · exact le_add_right hx.1 hy.1.nn (hx.2 z hz)
      · exact le_add_left hy.1 hx.1.nn (hy.2 z hz))
  rw [List.map_id] at hs
  exact hs.2 x (hl.mem_iff.2 hx)

theorem eval_seq (n : Nat) (w : List FNum) (hw : ∀ x ∈ w, NR R x) (hn : w.length = n + 1) (u : List FNum) :
    (SumTree.seq n).eval R (w ++ u) = w.foldl (FNum.add R) (.fin 0) := by
  induction n generalizing w u with
  | zero =>
    obtain ⟨x, rfl⟩ := List.length_eq_one_iff.1 hn
    show FNum.add R (R.rnd 0) x = FNum.add R (FNum.fin 0) x
    rw [R.zero]
  | succ n ih =>
    obtain ⟨w', x, rfl⟩ : ∃ w' x, w = w' ++ [x] := by
      rcases w.eq_nil_or_concat with rfl | ⟨w', x, rfl⟩
      · simp at hn
      · exact ⟨w', x, List.concat_eq_append⟩
    have hlen : w'.length = n + 1 := by simpa using hn
    have e1 := ih w' (fun y hy => hw y (by simp [hy])) hlen ([x] ++ u)
    have e2 : (w' ++ ([x] ++ u)).getD (n + 1) (FNum.fin 0) = x := by
      rw [List.getD_eq_getElem?_getD, List.getElem?_append_right hlen.le, hlen]
      simp
    rw [SumTree.seq, SumTree.eval, SumTree.eval, List.append_assoc, e1, e2, R.zero, nr_zero_add (hw x (by simp)),
      List.foldl_append]
    rfl

/-- A sum from left to right. -/
theorem sum_in_turn (v : Vec (FP R)) (hv : All (NR R) v) (h : AddsInTurn R v.length) :
    (Arith.sum v : FP R) = v.foldl Arith.add (FP.fin 0) := by
  have key : ∀ v : List FNum, (∀ x ∈ v, NR R x) → R.order.sum v.length = SumTree.seq (v.length - 1) →
      FNum.sum R v = v.foldl (FNum.add R) (.fin 0) := by
    intro v hv h
    unfold FNum.sum
    cases v with
    | nil => exact R.zero
    | cons x v =>
      have := eval_seq (R := R) v.length (x :: v) hv rfl []
      rw [List.append_nil] at this
      rw [h]
      exact this
  exact key v hv h

theorem un_div' {x m : FNum} (hx : NN x) (hm : NN m) (h : Le x m) : UN (FNum.div R x m) := un_div hx hm h

/-- `-log x` for `x` in `[0, 1]`. -/
theorem nn_neg_log {x : FNum} (h : UN x) : NN (FNum.neg (FNum.log R x)) := by
  cases h with
  | nan => exact .nan
  | fin y h h1 =>
    simp only [FNum.log]
    rw [if_neg (by linarith)]
    split
    · exact .inf
    · rename_i h0
      have m := (R.log_faithful y (lt_of_le_of_ne h (Ne.symm h0)) 0 R.zero).2 (Real.log_nonpos h h1)
      cases e : R.rnd (R.logv y) with
      | nan => exact .nan
      | ninf => exact .inf
      | pinf => rw [e] at m; simp [FNum.toEReal] at m
      | fin z => rw [e] at m; exact .fin (-z) (by simp [FNum.toEReal] at m; linarith)

end

/-! ### Loop bodies -/

section
variable {S V X : Type} [DecidableEq S] [DecidableEq V] [DecidableEq X] {R : Rounding}
variable (l : List (S × V × X)) (f : Option (V → X → X → Option (FP R)))

theorem oneIf_nn {b : Bool} {x : FP R} (h : oneIf b = some x) : NN x := by
  unfold oneIf at h
  split at h
  · cases h; exact nn_ofNat 1
  · cases h

theorem sc_nn : (matsOf l f).sc.All NN := Mat.all_ofFn _ _ _ fun _ _ _ h => oneIf_nn h

theorem mutEx_nn : (matsOf l f).mutEx.All NN := Mat.all_ofFn _ _ _ fun _ _ _ h => oneIf_nn h

theorem ones_nn (n : Nat) : All NN (ones n : Vec (FP R)) := all_replicate (nn_ofNat 1) n

theorem zeros_nn (n : Nat) : All NN (zeros n : Vec (FP R)) := all_replicate (nn_ofNat 0) n

theorem sourceCounts_nn : All NN (sourceCounts (matsOf l f)) := (sc_nn l f).T.mulVec (ones_nn _)

theorem rowDot_ge1 {B : Type} {bs : List B} {g : B → Option (FP R)} {F : B → FP R}
    (hg : ∀ b ∈ bs, ∀ x, g b = some x → NN x) (hF : ∀ b ∈ bs, NN (F b)) {b : B} (hb : b ∈ bs) {x : FP R}
    (hx : g b = some x) (h1 : GE1 (x *. F b : FP R)) : GE1 (rowDot (α := FP R) bs g F) := by
  have nnstep : ∀ (b : B) (a : FP R), b ∈ bs → NN a → NN (rowStep (α := FP R) g F a b) := by
    intro b a hb ha
    unfold rowStep
    split
    · exact ha
    · exact nn_add ha (nn_mul (hg b hb _ ‹_›) (hF b hb))
  have gestep : ∀ (b : B) (a : FP R), b ∈ bs → GE1 a → GE1 (rowStep (α := FP R) g F a b) := by
    intro b a hb ha
    unfold rowStep
    split
    · exact ha
    · exact ge1_add ha (nn_mul (hg b hb _ ‹_›) (hF b hb))
  have keep : ∀ (L : List B) (a : FP R), (∀ c ∈ L, c ∈ bs) → GE1 a → GE1 (L.foldl (rowStep (α := FP R) g F) a) := by
    intro L
    induction L with
    | nil => intro a _ ha; exact ha
    | cons c L ih => intro a hL ha; exact ih _ (fun d hd => hL d (by simp [hd])) (gestep c a (hL c (by simp)) ha)
  have key : ∀ (L : List B) (a : FP R), (∀ c ∈ L, c ∈ bs) → NN a → b ∈ L → GE1 (L.foldl (rowStep (α := FP R) g F) a) := by
    intro L
    induction L with
    | nil => intro a _ _ h; cases h
    | cons c L ih =>
      intro a hL ha hbL
      change GE1 (L.foldl (rowStep (α := FP R) g F) (rowStep (α := FP R) g F a c))
      rcases List.mem_cons.1 hbL with rfl | hbL
      · refine keep L _ (fun d hd => hL d (by simp [hd])) ?_
        unfold rowStep
        rw [hx]
        exact ge1_add' ha h1
      · exact ih _ (fun d hd => hL d (by simp [hd])) (nnstep c a (hL c (by simp)) ha) hbL
  exact key bs _ (fun _ h => h) (nn_ofNat 0) hb

theorem claimCounts_ge1 : All GE1 (claimCounts (matsOf l f)) := by
  unfold claimCounts
  rw [sc_eq_ofRel]
  show All GE1 ((Mat.ofRel (sources l) (claims l) (scL l)).mulVec (ones (claims l).length))
  rw [ones_eq, Mat.mulVec_ofRel]
  intro y hy
  obtain ⟨s, hs, rfl⟩ := List.mem_map.1 hy
  obtain ⟨c, hc⟩ : ∃ c, (s, c) ∈ recorded l := by
    obtain ⟨c, hc⟩ := claimsOf_nonempty (l := l) (s := s) hs
    exact ⟨c, (mem_claimsOf l).1 hc⟩
  refine rowDot_ge1 (fun b _ x h => oneIf_nn h) (fun _ _ => nn_ofNat 1) (b := c) ?_ (x := Arith.ofNat 1) ?_ ?_
  · exact (mem_claims l).2 ⟨(s, c), hc, rfl⟩
  · simp [scL, oneIf, hc]
  · rw [FP.one_eq, FP.mul_fin, one_mul, R.one]
    exact .fin 1 le_rfl

/-- What a loop body needs. -/
def Pre (k : Kind (FP R)) (t b : Vec (FP R)) : Prop :=
  match k with
  | .truthFinder _ _ _ => True
  | .crh _ => True
  | _ => All NN t ∧ All NN b

/-- What a loop body guarantees. -/
def Post (n : Nat) (k : Kind (FP R)) (t b : Vec (FP R)) : Prop :=
  match k with
  | .sums | .averageLog | .investment _ | .pooledInvestment _ => All UN t ∧ All UN b
  | .truthFinder _ _ _ => All NN t ∧ All UN b
  | .crh eps => NN eps → All NN t ∧ All NN b ∧ (AddsInTurn R n → All UN b)
  | .unboundedSums => All NN t ∧ All NN b

theorem Post.pre {n : Nat} {k : Kind (FP R)} {t b : Vec (FP R)} (h : Post n k t b) : Pre k t b := by
  cases k <;> first | trivial | exact ⟨h.1.mono fun _ => UN.nn, h.2.mono fun _ => UN.nn⟩ | exact h

variable {l f}

theorem normalise2_range {v w : Vec (FP R)} {g : Vec (FP R) → Vec (FP R) → Step (FP R)} {s : Step (FP R)}
    (hg : ∀ a b, (g a b).trust = a ∧ (g a b).belief = b)
    (h : (do let a ← normalise v; let b ← normalise w; return some (g a b) :
      Except PyErr (Option (Step (FP R)))) = .ok (some s)) (hv : All NN v) (hw : All NN w) :
    All UN s.trust ∧ All UN s.belief := by
  simp only [bind, Except.bind, pure, Except.pure] at h
  cases ha : normalise v with
  | error e => rw [ha] at h; cases h
  | ok a =>
    rw [ha] at h
    cases hb : normalise w with
    | error e => rw [hb] at h; cases h
    | ok b =>
      rw [hb] at h
      cases h
      rw [(hg a b).1, (hg a b).2]
      exact ⟨all_normalise hv ha, all_normalise hw hb⟩

theorem updateTrust_nn {t b nt : Vec (FP R)} (ht : All NN t) (hb : All NN b)
    (h : updateTrust (matsOf l f) t b = some nt) : All NN nt := by
  unfold updateTrust at h
  simp only at h
  split at h
  · cases h
  · cases h
    have ham : All NN (vzip Arith.div t (claimCounts (matsOf l f))) :=
      all_vzip ht (claimCounts_ge1 l f) fun x y hx hy => nn_div hx hy.nn
    have hinv : All NN (((matsOf l f).sc.T.mulVec (vzip Arith.div t (claimCounts (matsOf l f)))).map
        (Arith.ofNat 1 /. ·)) :=
      all_map ((sc_nn l f).T.mulVec ham) fun x hx => nn_div (nn_ofNat 1) hx
    exact all_vzip ham (((sc_nn l f).scaleCols hinv).mulVec hb) fun x y hx hy => nn_mul hx hy

theorem rescale_nn {v w : Vec (FP R)} (hv : All NN v) (h : rescale v = .ok w) : All NN w := by
  unfold rescale at h
  cases hm : npMax v with
  | error e => rw [hm] at h; cases h
  | ok m =>
    rw [hm] at h
    simp only [bind, Except.bind, pure, Except.pure, Except.ok.injEq] at h
    subst h
    split
    · exact all_map hv fun x hx => nn_div hx (nn_ofNat 1000)
    · exact hv

theorem crhAlpha_nr {eps : FP R} (he : NN eps) (b : Vec (FP R)) : All (NR R) (crhAlpha eps (matsOf l f) b) := by
  intro y hy
  obtain ⟨r, hr, rfl⟩ := List.mem_map.1 hy
  refine nr_add he ?_
  have hz : ∀ k, All NN (crhZ (matsOf l f) b k) := by
    intro k z hz
    obtain ⟨j, -, rfl⟩ := List.mem_map.1 hz
    refine nn_mul ?_ (nn_sq _)
    unfold Mat.get
    cases e : ((matsOf l f).mutEx.rows.getD k []).lookup j with
    | none => exact nn_ofNat 0
    | some x =>
      have hrow : (matsOf l f).mutEx.rows.getD k [] ∈ (matsOf l f).mutEx.rows := by
        rw [List.getD_eq_getElem?_getD] at e ⊢
        cases e' : (matsOf l f).mutEx.rows[k]? with
        | none => rw [e'] at e; cases e
        | some r => exact List.mem_of_getElem? e'
      exact mutEx_nn l f _ hrow (j, x) (mem_of_lookup_some e)
  have hrow : All NN ((List.range (matsOf l f).numClaims).map fun j =>
      r.foldl (fun (acc : FP R) e => acc +. e.2 *. (crhZ (matsOf l f) b e.1).at j) (Arith.ofNat 0)) := by
    intro x hx
    obtain ⟨j, -, rfl⟩ := List.mem_map.1 hx
    exact foldl_nn r (fun e => e.2 *. (crhZ (matsOf l f) b e.1).at j) _ (nn_ofNat 0)
      fun e he => nn_mul (sc_nn l f r hr e he) (all_at (hz e.1) j)
  have e : (ones (matsOf l f).numClaims : Vec (FP R)) = (List.range (matsOf l f).numClaims).map fun _ => Arith.ofNat 1 := by
    simp [ones]
  rw [e]
  exact dot_nn _ _ _ (fun j hj => hrow _ (List.mem_map_of_mem hj)) fun _ _ => nn_ofNat 1

theorem crh_belief {T : S → FP R} (hT : ∀ s ∈ sources l, NR R (T s)) (hturn : AddsInTurn R (sources l).length) :
    All UN (((matsOf l f).sc.T.mulVec ((sources l).map T)).map (· /. Arith.sum ((sources l).map T))) := by
  rw [scT_eq_ofRel, Mat.mulVec_ofRel]
  intro y hy
  obtain ⟨x, hx, rfl⟩ := List.mem_map.1 hy
  obtain ⟨c, -, rfl⟩ := List.mem_map.1 hx
  have e1 : rowDot (α := FP R) (sources l) (fun s => scL l s c) T =
      (sources l).foldl (partStep (fun s => decide ((s, c) ∈ recorded l)) T) (FP.fin 0) := by
    unfold rowDot
    rw [FP.zero_eq]
    generalize (FP.fin 0 : FP R) = a
    have key : ∀ (L : List S) (a : FP R), (∀ s ∈ L, s ∈ sources l) →
        L.foldl (rowStep (α := FP R) (fun s => scL l s c) T) a =
        L.foldl (partStep (fun s => decide ((s, c) ∈ recorded l)) T) a := by
      intro L
      induction L with
      | nil => intro a _; rfl
      | cons s L ih =>
        intro a hL
        rw [List.foldl_cons, List.foldl_cons, ih _ fun s hs => hL s (by simp [hs])]
        congr 1
        unfold rowStep partStep
        beta_reduce
        rw [scL_fp]
        by_cases h : (s, c) ∈ recorded l
        · simp only [h, if_true, decide_true]
          congr 1
          exact nr_one_mul (hT s (hL s (by simp)))
        · simp only [h, if_false, decide_false, Bool.false_eq_true]
    exact key _ _ fun _ h => h
  have e2 : (Arith.sum ((sources l).map T) : FP R) = (sources l).foldl (fullStep T) (FP.fin 0) := by
    rw [sum_in_turn _ (by intro x hx; obtain ⟨s, hs, rfl⟩ := List.mem_map.1 hx; exact hT s hs)
      (by rw [List.length_map]; exact hturn)]
    have key : ∀ (L : List S) (a : FP R), (L.map T).foldl Arith.add a = L.foldl (fullStep T) a :=
      fun L a => List.foldl_map
    exact key _ _
  obtain ⟨h1, h2, h3⟩ := part_le (sources l) (fun s => decide ((s, c) ∈ recorded l)) T hT (FP.fin 0) (FP.fin 0)
    nr_zero nr_zero (Le.refl _)
  have h1' : Le (rowDot (α := FP R) (sources l) (fun s => scL l s c) T)
      (Arith.sum (α := FP R) ((sources l).map T)) := by rw [e1, e2]; exact h1
  have h2' : NR R (rowDot (α := FP R) (sources l) (fun s => scL l s c) T) := by rw [e1]; exact h2
  have h3' : NR R (Arith.sum (α := FP R) ((sources l).map T)) := by rw [e2]; exact h3
  exact un_div' h2'.nn h3'.nn h1'

theorem body_range {k : Kind (FP R)} {t b : Vec (FP R)} {s : Step (FP R)} (hp : Pre k t b)
    (h : k.body (matsOf l f) t b = .ok (some s)) : Post (sources l).length k s.trust s.belief := by
  cases k with
  | sums =>
    have ht := (sc_nn l f).mulVec hp.2
    exact normalise2_range (g := fun a b => ⟨t, a, a, b⟩) (fun _ _ => ⟨rfl, rfl⟩) h ht ((sc_nn l f).T.mulVec ht)
  | averageLog =>
    have hw : All NN (avlogWeights (matsOf l f)) :=
      all_map (claimCounts_ge1 l f) fun x hx => nn_div (nn_log hx) hx.nn
    have ht : All NN (vzip Arith.mul (avlogWeights (matsOf l f)) ((matsOf l f).sc.mulVec b)) :=
      all_vzip hw ((sc_nn l f).mulVec hp.2) fun x y hx hy => nn_mul hx hy
    exact normalise2_range (g := fun a b => ⟨a, t, a, b⟩) (fun _ _ => ⟨rfl, rfl⟩) h ht ((sc_nn l f).T.mulVec ht)
  | investment g =>
    simp only [Kind.body, investBody] at h
    cases hu : updateTrust (matsOf l f) t b with
    | none => rw [hu] at h; cases h
    | some nt =>
      rw [hu] at h
      have hnt := updateTrust_nn hp.1 hp.2 hu
      refine normalise2_range (g := fun a b => ⟨a, t, a, b⟩) (fun _ _ => ⟨rfl, rfl⟩) h hnt ?_
      refine all_map ((sc_nn l f).T.mulVec ?_) fun x hx => nn_pow hx g
      exact all_vzip hnt (claimCounts_ge1 l f) fun x y hx hy => nn_div hx hy.nn
  | pooledInvestment g =>
    simp only [Kind.body, pooledBody] at h
    cases hu : updateTrust (matsOf l f) t b with
    | none => rw [hu] at h; cases h
    | some nt =>
      rw [hu] at h
      have hnt := updateTrust_nn hp.1 hp.2 hu
      have hbase := (sc_nn l f).T.mulVec (all_vzip hnt (claimCounts_ge1 l f) (g := Arith.div) fun x y hx hy => nn_div hx hy.nn)
      have hret := all_map hbase (g := fun x => Arith.pow x g) fun x hx => nn_pow hx g
      refine normalise2_range (g := fun a b => ⟨a, t, a, b⟩) (fun _ _ => ⟨rfl, rfl⟩) h hnt ?_
      refine all_vzip hbase ?_ fun x y hx hy => nn_mul hx hy
      exact all_vzip hret ((mutEx_nn l f).mulVec hret) fun x y hx hy => nn_div hx hy
  | truthFinder rho gamma t0 =>
    simp only [Kind.body, tfBody] at h
    cases hl : logTrust t with
    | none => rw [hl] at h; cases h
    | some tau =>
      rw [hl] at h
      cases h
      have hb : All UN (((tfB rho (matsOf l f)).mulVec tau).map fun x =>
          (Arith.ofNat 1 /. (Arith.ofNat 1 +. Arith.exp (Arith.neg gamma *. x)) : FP R)) := by
        intro y hy
        obtain ⟨x, -, rfl⟩ := List.mem_map.1 hy
        rw [FP.one_eq]
        exact un_inv (ge1_add (.fin 1 le_rfl) (nn_exp _))
      refine ⟨?_, hb⟩
      have hA : (tfA (matsOf l f)).All NN :=
        (sc_nn l f).scaleRows (all_map (claimCounts_ge1 l f) fun x hx => nn_div (nn_ofNat 1) hx.nn)
      exact hA.mulVec (hb.mono fun _ => UN.nn)
  | crh eps =>
    intro he
    simp only [Kind.body, crhBody] at h
    cases h
    have ha := crhAlpha_nr (l := l) (f := f) he b
    have ht : All (NR R) ((crhAlpha eps (matsOf l f) b).map fun a =>
        (eps -. Arith.log (a /. Arith.sum (crhAlpha eps (matsOf l f) b)) : FP R)) := by
      intro y hy
      obtain ⟨a, hm, rfl⟩ := List.mem_map.1 hy
      exact nr_add he (nn_neg_log (un_div' (ha a hm).nn (sum_nr _ (ha.mono fun _ => NR.nn)).nn (le_sum _ ha hm)))
    refine ⟨ht.mono fun _ => NR.nn, ?_⟩
    obtain ⟨T, hT⟩ : ∃ T : S → FP R, ((crhAlpha eps (matsOf l f) b).map fun a =>
        (eps -. Arith.log (a /. Arith.sum (crhAlpha eps (matsOf l f) b)) : FP R)) = (sources l).map T := by
      unfold crhAlpha
      rw [sc_eq_ofRel]
      exact ⟨_, by simp only [Mat.ofRel, List.map_map]; rfl⟩
    show All NN (List.map _ ((matsOf l f).sc.T.mulVec ((crhAlpha eps (matsOf l f) b).map fun a =>
        (eps -. Arith.log (a /. Arith.sum (crhAlpha eps (matsOf l f) b)) : FP R)))) ∧
      (AddsInTurn R (sources l).length → All UN (List.map _ ((matsOf l f).sc.T.mulVec ((crhAlpha eps (matsOf l f) b).map fun a =>
        (eps -. Arith.log (a /. Arith.sum (crhAlpha eps (matsOf l f) b)) : FP R)))))
    rw [hT] at ht ⊢
    have hsum := (sum_nr _ (ht.mono fun _ => NR.nn)).nn
    exact ⟨all_map ((sc_nn l f).T.mulVec (ht.mono fun _ => NR.nn)) fun x hx => nn_div hx hsum,
      crh_belief fun s hs => ht _ (List.mem_map_of_mem hs)⟩
  | unboundedSums =>
    simp only [Kind.body, usumsBody, bind, Except.bind, pure, Except.pure] at h
    split at h
    · cases h
    · split at h
      · cases h
      · rename_i h1 _ _ h2
        cases h
        have ht := (sc_nn l f).mulVec hp.2
        exact ⟨rescale_nn ht h1, rescale_nn ((sc_nn l f).T.mulVec ht) h2⟩

theorem prior_nn {p : Option Prior} {b : Vec (FP R)} (h : priorBeliefs p (matsOf l f) = .ok b) : All NN b := by
  unfold priorBeliefs at h
  split at h
  · cases h; exact all_replicate nn_half _
  · cases h
    exact all_vzip (sourceCounts_nn l f) ((mutEx_nn l f).mulVec (sourceCounts_nn l f)) fun x y hx hy => nn_div hx hy
  · cases h; exact sourceCounts_nn l f
  · cases h
    exact all_map ((mutEx_nn l f).mulVec (ones_nn _)) fun x hx => nn_div (nn_ofNat 1) hx
  · cases h

theorem init_pre {c : AlgCfg (FP R)} {t b : Vec (FP R)} (h : c.init (matsOf l f) = .ok (t, b)) :
    Pre c.kind t b := by
  unfold AlgCfg.init at h
  unfold Pre
  cases hk : c.kind <;> rw [hk] at h <;> simp only [bind, Except.bind, pure, Except.pure] at h ⊢
  all_goals
    split at h
    · cases h
    · rename_i hb
      cases h
      first | exact ⟨zeros_nn _, prior_nn hb⟩ | exact ⟨ones_nn _, prior_nn hb⟩

theorem steps_range {k : Kind (FP R)} {it : IterCfg (FP R)} {st : IterState (FP R)} {t b : Vec (FP R)}
    {n : Nat} {st' t' b' L} (h : Steps it (k.body (matsOf l f)) st t b n st' t' b' L) (hp : Pre k t b) :
    (1 ≤ n → Post (sources l).length k t' b') ∧ ∀ e ∈ L, Post (sources l).length k e.trust e.belief := by
  induction h with
  | refl => exact ⟨fun h => absurd h (by omega), by simp⟩
  | cons hfin hbody hcmp hrest ih =>
    have hs := body_range hp hbody
    obtain ⟨h1, h2⟩ := ih hs.pre
    refine ⟨fun _ => ?_, ?_⟩
    · cases hrest with
      | refl => exact hs
      | cons => exact h1 (by omega)
    · intro e he
      rcases List.mem_cons.1 he with rfl | he
      · exact hs
      · exact h2 e he

end
end TD
