import Verif.Lemmas.Binary64
import Verif.Props.Ranking
import Verif.Lemmas.Loop
import Verif.Model.Algorithm
/-!
Double-precision computations of UnboundedSums carried out on natural numbers: `n` stands for `n / 2 ^ 62`.
-/

namespace TD.Fixed
open TD.Double

variable {ω : Platform}

/-- The number that `n` stands for. -/
noncomputable def val (n : Nat) : FP (.binary64 ω) := FP.fin ((n : ℝ) / 2 ^ 62)

/-- `num / den` rounded to a multiple of `2 ^ k`. -/
def roundTo (num den k : Nat) : Nat :=
  let D := den * 2 ^ k
  let m := num / D
  let r := num % D
  (if 2 * r < D then m else if D < 2 * r then m + 1 else if m % 2 = 0 then m else m + 1) * 2 ^ k

/-- `num / den` rounded to 53 binary digits. -/
def rn (num den : Nat) : Nat := roundTo num den (Nat.log2 (num / den) - 52)

theorem nearest_div {num D : Nat} (hD : 0 < D) : nearest ((num : ℝ) / D) =
    ((if 2 * (num % D) < D then num / D else if D < 2 * (num % D) then num / D + 1
      else if num / D % 2 = 0 then num / D else num / D + 1 : Nat) : ℤ) := by
  have hD' : (0 : ℝ) < D := by exact_mod_cast hD
  have h' : (num : ℝ) = D * (num / D : Nat) + (num % D : Nat) := by exact_mod_cast (Nat.div_add_mod num D).symm
  have hq : (num : ℝ) / D = (num / D : Nat) + ((num % D : Nat) : ℝ) / D := by
    rw [eq_comm, eq_div_iff hD'.ne', add_mul, div_mul_cancel₀ _ hD'.ne']
    linarith
  have hr0 : (0 : ℝ) ≤ ((num % D : Nat) : ℝ) / D := by positivity
  have hr1 : ((num % D : Nat) : ℝ) / D < 1 := by
    rw [div_lt_one hD']; exact_mod_cast Nat.mod_lt num hD
  have hf : ⌊(num : ℝ) / D⌋ = ((num / D : Nat) : ℤ) := by
    rw [Int.floor_eq_iff, Int.cast_natCast, hq]
    exact ⟨by linarith, by linarith⟩
  have hx : (num : ℝ) / D - (((num / D : Nat) : ℤ) : ℝ) = ((num % D : Nat) : ℝ) / D := by
    rw [Int.cast_natCast]; linarith
  have c1 : ((num % D : Nat) : ℝ) / D < 1 / 2 ↔ 2 * (num % D) < D := by
    rw [div_lt_div_iff₀ hD' two_pos, one_mul, mul_comm]
    exact_mod_cast Iff.rfl
  have c2 : 1 / 2 < ((num % D : Nat) : ℝ) / D ↔ D < 2 * (num % D) := by
    rw [div_lt_div_iff₀ two_pos hD', one_mul, mul_comm _ (2 : ℝ)]
    exact_mod_cast Iff.rfl
  unfold nearest
  rw [hf, hx]
  simp only [c1, c2, Int.even_coe_nat, Nat.even_iff]
  split_ifs <;> push_cast <;> rfl

/-- Rounding at a given last place. -/
theorem roundNonneg_at {num den k : Nat} (hd : 0 < den)
    (h : lastPlace ((num : ℝ) / den / 2 ^ 62) = (k : ℤ) - 62) :
    roundNonneg ((num : ℝ) / den / 2 ^ 62) = (roundTo num den k : ℝ) / 2 ^ 62 := by
  have hd' : (0 : ℝ) < den := by exact_mod_cast hd
  have e2 : (2 : ℝ) ^ ((k : ℤ) - 62) = 2 ^ k / 2 ^ 62 := by
    rw [zpow_sub₀ two_ne_zero, zpow_natCast]; norm_num
  have e3 : (num : ℝ) / den / 2 ^ 62 / (2 ^ k / 2 ^ 62) = (num : ℝ) / ((den * 2 ^ k : Nat) : ℝ) := by
    push_cast
    field_simp
  unfold roundNonneg
  rw [h, e2, e3, nearest_div (by positivity)]
  unfold roundTo
  rw [Int.cast_natCast]
  push_cast
  rw [mul_div_assoc]

theorem rnd_val {num den : Nat} (hd : 0 < den) (h : 2 ^ 52 ≤ num / den ∨ den ∣ num) (hs : num / den < 2 ^ 200) :
    (Rounding.binary64 ω).rnd ((num : ℝ) / den / 2 ^ 62) = (val (ω := ω) (rn num den) : FNum) := by
  have hd' : (0 : ℝ) < den := by exact_mod_cast hd
  set x : ℝ := (num : ℝ) / den / 2 ^ 62 with hx
  have hx0 : 0 ≤ x := by positivity
  have hq1 : ((num / den : Nat) : ℝ) ≤ (num : ℝ) / den := Nat.cast_div_le
  have hq2 : (num : ℝ) / den < (num / den : Nat) + 1 := by
    rw [div_lt_iff₀ hd']
    exact_mod_cast (by rw [mul_comm]; exact Nat.lt_mul_div_succ num hd : num < (num / den + 1) * den)
  have key : roundNonneg x = (rn num den : ℝ) / 2 ^ 62 := by
    rcases Nat.lt_or_ge (num / den) (2 ^ 52) with hlt | hge
    · obtain ⟨q, rfl⟩ := h.resolve_left (by omega)
      have hq : den * q / den = q := Nat.mul_div_cancel_left q hd
      rw [hq] at hlt
      have hl : Nat.log2 q < 52 := by
        rcases Nat.eq_zero_or_pos q with rfl | h0
        · decide
        · exact (Nat.log2_lt h0.ne').2 hlt
      have e : rn (den * q) den = q := by
        unfold rn roundTo
        rw [hq, show Nat.log2 q - 52 = 0 by omega]
        simp [hq, hd]
      have ex : x = (q : ℝ) * 2 ^ (-62 : ℤ) := by
        rw [hx]; push_cast
        rw [mul_div_cancel_left₀ _ hd'.ne', zpow_neg, div_eq_mul_inv]
        norm_cast
      rw [e]
      have hxq : x = (q : ℝ) / 2 ^ 62 := by rw [ex, zpow_neg, div_eq_mul_inv]; norm_cast
      rw [← hxq]
      rcases hx0.lt_or_eq with h0 | h0
      · have hlog : Int.log 2 x ≤ -11 := by
          refine log_le h0 ?_
          rw [ex]
          have : (q : ℝ) < 2 ^ 52 := by exact_mod_cast hlt
          calc (q : ℝ) * 2 ^ (-62 : ℤ) < 2 ^ 52 * 2 ^ (-62 : ℤ) := by
                apply mul_lt_mul_of_pos_right this; positivity
            _ = _ := by norm_num
        obtain ⟨k, hk⟩ := pow_multiple (a := -62) (e := lastPlace x) (by unfold lastPlace; omega)
        refine roundNonneg_multiple (k := q * k) ?_
        rw [Int.cast_mul, Int.cast_natCast, mul_assoc, ← hk]
        exact ex
      · rw [← h0]; exact roundNonneg_zero
    · apply roundNonneg_at hd
      have hne : num / den ≠ 0 := by have : 0 < 2 ^ 52 := by positivity
                                     omega
      have hL : 52 ≤ Nat.log2 (num / den) := (Nat.le_log2 hne).2 hge
      have b1 : 2 ^ Nat.log2 (num / den) ≤ num / den := Nat.log2_self_le hne
      have b2 : num / den < 2 ^ (Nat.log2 (num / den) + 1) := Nat.lt_log2_self
      set L := Nat.log2 (num / den)
      have b1' : (2 : ℝ) ^ L ≤ (num / den : Nat) := by exact_mod_cast b1
      have b2' : ((num / den : Nat) : ℝ) + 1 ≤ 2 ^ (L + 1) := by exact_mod_cast b2
      have hx0 : 0 < x := by
        rw [hx]
        have : (0 : ℝ) < 2 ^ L := by positivity
        exact div_pos (by linarith) (by positivity)
      have e : Int.log 2 x = (L : ℤ) - 62 := by
        apply le_antisymm
        · refine log_le hx0 ?_
          rw [hx, div_lt_iff₀ (by positivity), show (L : ℤ) - 62 + 1 = ((L + 1 : Nat) : ℤ) - 62 by push_cast; ring,
            zpow_sub₀ two_ne_zero, zpow_natCast, show (2 : ℝ) ^ (62 : ℤ) = 2 ^ 62 by norm_cast,
            div_mul_cancel₀ _ (by positivity)]
          linarith
        · refine le_log hx0 ?_
          rw [hx, le_div_iff₀ (by positivity), zpow_sub₀ two_ne_zero, zpow_natCast,
            show (2 : ℝ) ^ (62 : ℤ) = 2 ^ 62 by norm_cast, div_mul_cancel₀ _ (by positivity)]
          linarith
      unfold lastPlace
      rw [e]
      omega
  have hb : roundNonneg x < 2 ^ 1024 := by
    have h1 : x ≤ 2 ^ (200 : ℤ) := by
      have : ((num / den : Nat) : ℝ) + 1 ≤ 2 ^ 200 := by exact_mod_cast hs
      rw [hx, div_le_iff₀ (by positivity)]
      have h2 : (2 : ℝ) ^ (200 : ℤ) = 2 ^ 200 := by norm_cast
      rw [h2]
      generalize (2 : ℝ) ^ 200 = w at *
      nlinarith
    have h3 : roundNonneg ((2 : ℝ) ^ (200 : ℤ)) = 2 ^ (200 : ℤ) := by
      obtain ⟨k, hk⟩ := pow_multiple (a := 200) (e := lastPlace ((2 : ℝ) ^ (200 : ℤ))) (by
        have := log_le (x := (2 : ℝ) ^ (200 : ℤ)) (E := 200) (by positivity) (zpow_lt_zpow_right₀ (by norm_num) (by norm_num))
        unfold lastPlace; omega)
      exact roundNonneg_multiple hk
    refine (roundNonneg_mono hx0 h1).trans_lt ?_
    rw [h3, ← zpow_natCast]
    exact zpow_lt_zpow_right₀ (by norm_num) (by norm_num)
  show rnd x = _
  rw [rnd_nonneg hx0, if_neg (not_le.2 hb), key]
  rfl

/-- `num / den` rounded, if the number can be represented here. -/
def rn? (num den : Nat) : Option Nat :=
  if 0 < den ∧ (2 ^ 52 ≤ num / den ∨ num % den = 0) ∧ num / den < 2 ^ 200 then some (rn num den) else none

theorem rn?_some {num den n : Nat} (h : rn? num den = some n) :
    (Rounding.binary64 ω).rnd ((num : ℝ) / den / 2 ^ 62) = (val (ω := ω) n : FNum) := by
  unfold rn? at h
  split at h
  · next hc =>
    obtain ⟨h1, h2, h3⟩ := hc
    rw [← Option.some.inj h]
    exact rnd_val h1 (h2.imp_right Nat.dvd_of_mod_eq_zero) h3
  · exact absurd h (by simp)

/-- One entry of a product with a matrix of ones at `js`. -/
def row? (v : List Nat) (js : List Nat) : Option Nat :=
  js.foldlM (fun a j => do rn? (a + (← rn? (v.getD j 0) 1)) 1) 0

/-- Rows of a matrix of ones at the given places. -/
noncomputable def onesAt (js : List (List Nat)) : List (List (Nat × FP (.binary64 ω))) :=
  js.map fun r => r.map fun j => (j, Arith.ofNat 1)

theorem val_zero : val (ω := ω) 0 = FP.fin 0 := by simp [val]

theorem at_map_val (v : List Nat) (j : Nat) : Vec.at (v.map (val (ω := ω))) j = val (v.getD j 0) := by
  unfold Vec.at
  rw [FP.zero_eq, ← val_zero, List.getD_eq_getElem?_getD, List.getD_eq_getElem?_getD, List.getElem?_map]
  cases v[j]? <;> rfl

theorem val_add {a b n : Nat} (h : rn? (a + b) 1 = some n) :
    Arith.add (val (ω := ω) a) (val b) = val n := by
  rw [val, val, FP.add_fin]
  have := rn?_some (ω := ω) h
  rw [← this]
  congr 1
  push_cast
  ring

theorem one_mul_val {a n : Nat} (h : rn? a 1 = some n) :
    Arith.mul (Arith.ofNat 1) (val (ω := ω) a) = val n := by
  rw [FP.one_eq, val, FP.mul_fin]
  have := rn?_some (ω := ω) h
  rw [← this]
  congr 1
  push_cast
  ring

theorem row?_some {v js : List Nat} {n : Nat} (h : row? v js = some n) :
    (js.map fun j => (j, (Arith.ofNat 1 : FP (.binary64 ω)))).foldl
      (fun acc e => acc +. e.2 *. Vec.at (v.map val) e.1) (Arith.ofNat 0) = val n := by
  unfold row? at h
  rw [FP.zero_eq, ← val_zero]
  generalize hz : (0 : Nat) = z at h
  have key : ∀ a, js.foldlM (fun a j => do rn? (a + (← rn? (v.getD j z) 1)) 1) a = some n →
      (js.map fun j => (j, (Arith.ofNat 1 : FP (.binary64 ω)))).foldl
        (fun acc e => acc +. e.2 *. Vec.at (v.map val) e.1) (val a) = val n := by
    subst hz
    clear h
    intro a h
    induction js generalizing a with
    | nil => simp only [List.foldlM_nil, pure, Option.some.injEq] at h; simp [h]
    | cons j js ih =>
      rw [List.foldlM_cons] at h
      simp only [bind, Option.bind_eq_some_iff] at h
      obtain ⟨a', ⟨p, h1, h2⟩, h3⟩ := h
      rw [List.map_cons, List.foldl_cons, at_map_val, one_mul_val h1, val_add h2]
      exact ih a' h3
  exact key z h

theorem mapM_option {β γ : Type} {g : β → Option γ} {L : List β} {M : List γ} (h : L.mapM g = some M) :
    List.Forall₂ (fun b c => g b = some c) L M := by
  induction L generalizing M with
  | nil => simp at h; subst h; exact .nil
  | cons b L ih =>
    rw [List.mapM_cons] at h
    simp only [bind, pure, Option.bind_eq_some_iff, Option.some.injEq] at h
    obtain ⟨c, h1, M', h2, rfl⟩ := h
    exact .cons h1 (ih h2)

theorem mapM_map {β γ δ : Type} {g : β → Option γ} {F : β → δ} {G : γ → δ} {L : List β} {M : List γ}
    (h : L.mapM g = some M) (H : ∀ b c, g b = some c → F b = G c) : L.map F = M.map G := by
  have h' := mapM_option h
  clear h
  induction h' with
  | nil => rfl
  | cons h1 h2 ih => rw [List.map_cons, List.map_cons, H _ _ h1, ih]

theorem mulVec_val {M : Mat (FP (.binary64 ω))} {js : List (List Nat)} (hM : M.rows = onesAt js) {v w : List Nat}
    (h : js.mapM (row? v) = some w) : M.mulVec (v.map val) = w.map val := by
  unfold Mat.mulVec
  rw [hM, onesAt, List.map_map]
  exact mapM_map h fun b c hb => row?_some hb

/-- `if max(v) > 1000: v /= 1000`. -/
def rescale? (v : List Nat) : Option (List Nat) :=
  match v with
  | [] => none
  | x :: xs => if 1000 * 2 ^ 62 < xs.foldl max x then v.mapM (rn? · 1000) else some v

theorem val_lt (a b : Nat) : Arith.lt (val (ω := ω) a) (val b) = decide (a < b) := by
  rw [val, val, FP.lt_fin]
  congr 1
  rw [div_lt_div_iff_of_pos_right (by positivity), Nat.cast_lt]

theorem val_eq (a b : Nat) : Arith.eq (val (ω := ω) a) (val b) = decide (a = b) := by
  show FNum.eq (FNum.fin _) (FNum.fin _) = _
  unfold FNum.eq
  have : ((a : ℝ) / 2 ^ 62 = (b : ℝ) / 2 ^ 62) ↔ a = b := by
    rw [div_left_inj' (by positivity), Nat.cast_inj]
  simp [FNum.toEReal, this]

theorem val_not_nan (a : Nat) : isNan (val (ω := ω) a) = false := by
  unfold isNan
  rw [val_eq]
  simp

theorem npMax_val (x : Nat) (xs : List Nat) :
    npMax ((x :: xs).map (val (ω := ω))) = .ok (val (xs.foldl max x)) := by
  rw [List.map_cons, npMax]
  congr 1
  induction xs generalizing x with
  | nil => rfl
  | cons y ys ih =>
    rw [List.map_cons, List.foldl_cons, List.foldl_cons, val_not_nan, val_not_nan, val_lt]
    simp only [Bool.false_eq_true, if_false]
    rw [← ih]
    congr 1
    by_cases h : x < y
    · rw [if_pos (by simpa using h), max_eq_right h.le]
    · rw [if_neg (by simpa using h), max_eq_left (by omega)]

theorem ofNat_thousand : (Arith.ofNat 1000 : FP (.binary64 ω)) = val (1000 * 2 ^ 62) := by
  have : (Rounding.binary64 ω).rnd (1000 : Nat) = .fin (1000 : Nat) := rep64_nat (by norm_num)
  show (Rounding.binary64 ω).rnd (1000 : Nat) = _
  rw [this, val]
  show FNum.fin _ = FNum.fin _
  congr 1
  norm_num

theorem val_div {a n : Nat} (h : rn? a 1000 = some n) :
    Arith.div (val (ω := ω) a) (Arith.ofNat 1000) = val n := by
  rw [ofNat_thousand, val, val, FP.div_fin _ (by positivity)]
  have := rn?_some (ω := ω) h
  rw [← this]
  congr 1
  push_cast
  field_simp
  ring

theorem rescale_val {v w : List Nat} (h : rescale? v = some w) :
    rescale (v.map (val (ω := ω))) = .ok (w.map val) := by
  cases v with
  | nil => simp [rescale?] at h
  | cons x xs =>
    unfold rescale
    rw [npMax_val]
    simp only [rescale?] at h
    simp only [bind, Except.bind, pure, Except.pure]
    rw [ofNat_thousand, val_lt]
    split at h
    · next hc =>
      rw [if_pos (by simpa using hc)]
      rw [← ofNat_thousand]
      congr 1
      rw [List.map_map]
      exact mapM_map h fun b c hb => val_div hb
    · next hc =>
      rw [if_neg (by simpa using hc), Option.some.inj h]

/-- Dense ranks. -/
def ranksOf (v : List Nat) : List Nat := v.map fun x => (v.dedup.filter (· < x)).length

/-- The natural number behind a value. -/
noncomputable def key : FP (.binary64 ω) → Nat
  | FNum.fin r => ⌊r * 2 ^ 62⌋₊
  | _ => 0

theorem key_val (n : Nat) : key (val (ω := ω) n) = n := by
  show ⌊(n : ℝ) / 2 ^ 62 * 2 ^ 62⌋₊ = n
  rw [div_mul_cancel₀ _ (by positivity), Nat.floor_natCast]

theorem rankingVector_val (v : List Nat) : rankingVector (v.map (val (ω := ω))) = .ok (ranksOf v) := by
  rw [rankingVector_eq (k := key)]
  · unfold ranksOf
    rw [List.map_map]
    congr 1
    apply List.map_congr_left
    intro x _
    have e : (v.map (val (ω := ω))).map key = v := by simp [Function.comp_def, key_val]
    simp only [Function.comp_apply, rankIn, key_val, e]
    rfl
  · intro a ha b hb
    obtain ⟨x, -, rfl⟩ := List.mem_map.1 ha
    obtain ⟨y, -, rfl⟩ := List.mem_map.1 hb
    exact ⟨by rw [val_lt, key_val, key_val], by rw [val_eq, key_val, key_val]⟩

/-- State of a run: trust, belief, iterations without change of the ranking. -/
abbrev St := List Nat × List Nat × Nat

/-- One iteration of UnboundedSums, for the matrix with ones at `rows` and its transpose `cols`. -/
def step? (rows cols : List (List Nat)) (s : St) : Option St := do
  let t ← rows.mapM (row? s.2.1)
  let b ← cols.mapM (row? t)
  let t' ← rescale? t
  let b' ← rescale? b
  return (t', b', if ranksOf s.1 = ranksOf t then s.2.2 + 1 else 0)

/-- `n` iterations, none of them after the ranking has been kept 20 times. -/
def steps? (rows cols : List (List Nat)) : Nat → St → Option St
  | 0, s => some s
  | n + 1, s => if 20 ≤ s.2.2 then none else do steps? rows cols n (← step? rows cols s)

variable {m : Mats (FP (.binary64 ω))} {rows cols : List (List Nat)}

theorem body_val (hr : m.sc.rows = onesAt rows) (hc : m.sc.T.rows = onesAt cols) {s s' : St}
    (h : step? rows cols s = some s') (th : Int) (k : Nat) (dist : Option (FP (.binary64 ω))) :
    ∃ p : Step (FP (.binary64 ω)), usumsBody m (s.1.map val) (s.2.1.map val) = .ok (some p) ∧
      p.trust = s'.1.map val ∧ p.belief = s'.2.1.map val ∧
      (IterCfg.ord th).compare ⟨k, dist, s.2.2⟩ p.cmp1 p.cmp2 = .ok ⟨k + 1, dist, s'.2.2⟩ := by
  unfold step? at h
  simp only [bind, pure, Option.bind_eq_some_iff, Option.some.injEq] at h
  obtain ⟨t, h1, b, h2, t', h3, b', h4, rfl⟩ := h
  refine ⟨⟨s.1.map val, t.map val, t'.map val, b'.map val⟩, ?_, rfl, rfl, ?_⟩
  · simp only [usumsBody, mulVec_val hr h1, mulVec_val hc h2, rescale_val h3, rescale_val h4]
    rfl
  · simp only [IterCfg.compare, rankingVector_val, bind, Except.bind, pure, Except.pure]

theorem steps_val (hr : m.sc.rows = onesAt rows) (hc : m.sc.T.rows = onesAt cols) {n : Nat} {s s' : St}
    (h : steps? rows cols n s = some s') {th : Int} (hth : 20 ≤ th) (k : Nat)
    (dist : Option (FP (.binary64 ω))) :
    ∃ L, Steps (IterCfg.ord th) (usumsBody m) ⟨k, dist, s.2.2⟩ (s.1.map val) (s.2.1.map val) n ⟨k + n, dist, s'.2.2⟩
      (s'.1.map val) (s'.2.1.map val) L := by
  induction n generalizing s k with
  | zero =>
    obtain rfl := Option.some.inj h
    exact ⟨_, .refl _ _ _⟩
  | succ n ih =>
    rw [steps?] at h
    split at h
    · exact absurd h (by simp)
    next hlt =>
    simp only [bind, Option.bind_eq_some_iff] at h
    obtain ⟨s1, h1, h2⟩ := h
    obtain ⟨p, hb, ht, hbel, hcmp⟩ := body_val hr hc h1 th k dist
    obtain ⟨L, hL⟩ := ih h2 (k + 1)
    rw [← ht, ← hbel, show k + 1 + n = k + (n + 1) by omega] at hL
    refine ⟨_, .cons ?_ hb hcmp hL⟩
    have : ¬ th ≤ s.2.2 := by omega
    simp [IterCfg.finished, this]

theorem steps?_add (n k : Nat) (s : St) :
    steps? rows cols (n + k) s = (steps? rows cols n s).bind (steps? rows cols k) := by
  induction n generalizing s with
  | zero => simp [steps?]
  | succ n ih =>
    rw [show n + 1 + k = (n + k) + 1 by omega, steps?, steps?]
    split
    · rfl
    · simp only [bind, Option.bind_assoc]
      congr 1
      funext s1
      exact ih s1

/-- A run that comes back to a state goes on for ever. -/
theorem steps?_cycle {i p : Nat} {s s' : St} (h0 : steps? rows cols i s = some s')
    (hc : steps? rows cols (p + 1) s' = some s') (n : Nat) : ∃ s'', steps? rows cols n s = some s'' := by
  have h1 : ∀ q, steps? rows cols (i + q * (p + 1)) s = some s' := by
    intro q
    induction q with
    | zero => simpa using h0
    | succ q ih =>
      rw [show i + (q + 1) * (p + 1) = (i + q * (p + 1)) + (p + 1) by ring, steps?_add, ih]
      exact hc
  have h2 := h1 n
  have hle : n ≤ i + n * (p + 1) := by nlinarith
  obtain ⟨j, hj⟩ := Nat.exists_eq_add_of_le hle
  rw [hj, steps?_add] at h2
  cases h : steps? rows cols n s with
  | none => rw [h] at h2; simp at h2
  | some s'' => exact ⟨s'', rfl⟩

end TD.Fixed
