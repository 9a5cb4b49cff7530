import Verif.Lemmas.Fixed
/-!
Double-precision computations of Sums carried out on natural numbers: `n` stands for `n / 2 ^ 62`.
-/

namespace TD.Fixed
open TD.Double

variable {ω : Platform}

theorem pyMax_val (x : Nat) (xs : List Nat) :
    pyMax ((x :: xs).map (val (ω := ω))) = .ok (val (xs.foldl max x)) := by
  rw [List.map_cons, pyMax]
  congr 1
  induction xs generalizing x with
  | nil => rfl
  | cons y ys ih =>
    rw [List.map_cons, List.foldl_cons, List.foldl_cons, val_lt]
    rw [← ih]
    congr 1
    by_cases h : x < y
    · rw [if_pos (by simpa using h), max_eq_right h.le]
    · rw [if_neg (by simpa using h), max_eq_left (by omega)]

/-- `v / max(v)`. -/
def normalise? (v : List Nat) : Option (List Nat) :=
  match v with
  | [] => none
  | x :: xs => v.mapM fun a => rn? (a * 2 ^ 62) (xs.foldl max x)

theorem div_val {a b n : Nat} (h : rn? (a * 2 ^ 62) b = some n) :
    Arith.div (val (ω := ω) a) (val b) = val n := by
  have hb : 0 < b := by
    unfold rn? at h
    split at h
    · next hc => exact hc.1
    · cases h
  have hb' : (0 : ℝ) < b := by exact_mod_cast hb
  rw [val, val, FP.div_fin _ (by positivity)]
  have := rn?_some (ω := ω) h
  rw [← this]
  congr 1
  push_cast
  field_simp
  norm_num

theorem normalise_val {v w : List Nat} (h : normalise? v = some w) :
    normalise (v.map (val (ω := ω))) = .ok (w.map val) := by
  cases v with
  | nil => simp [normalise?] at h
  | cons x xs =>
    unfold normalise
    rw [pyMax_val]
    simp only [normalise?] at h
    simp only [bind, Except.bind, pure, Except.pure]
    congr 1
    rw [List.map_map]
    exact mapM_map h fun b c hb => div_val hb

/-- One iteration of Sums. -/
def sumsOnce? (rows cols : List (List Nat)) (b : List Nat) : Option (List Nat × List Nat) := do
  let t ← rows.mapM (row? b)
  let b ← cols.mapM (row? t)
  return (← normalise? t, ← normalise? b)

theorem sumsBody_val {m : Mats (FP (.binary64 ω))} {rows cols : List (List Nat)} (hr : m.sc.rows = onesAt rows)
    (hc : m.sc.T.rows = onesAt cols) {b : List Nat} {s : List Nat × List Nat} (h : sumsOnce? rows cols b = some s)
    (t : Vec (FP (.binary64 ω))) :
    sumsBody m t (b.map val) = .ok (some ⟨t, s.1.map val, s.1.map val, s.2.map val⟩) := by
  unfold sumsOnce? at h
  simp only [bind, pure, Option.bind_eq_some_iff, Option.some.injEq] at h
  obtain ⟨t', h1, b', h2, t'', h3, b'', h4, rfl⟩ := h
  simp only [sumsBody, mulVec_val hr h1, mulVec_val hc h2, normalise_val h3, normalise_val h4]
  rfl

/-- `max(abs(v - w))`. -/
def lInf? (v w : List Nat) : Option Nat := do
  let u ← (v.zip w).mapM fun p => rn? (max p.1 p.2 - min p.1 p.2) 1
  match u with
  | [] => none
  | x :: xs => some (xs.foldl max x)

theorem abs_sub_val {a b n : Nat} (h : rn? (max a b - min a b) 1 = some n) :
    Arith.abs (Arith.sub (val (ω := ω) a) (val b)) = val n := by
  have h1 := rn?_some (ω := ω) h
  have e : ∀ x y : ℝ, Arith.sub (FP.fin (R := .binary64 ω) x) (FP.fin y) = (Rounding.binary64 ω).rnd (x - y) := by
    intro x y
    rw [sub_eq_add_neg]
    exact FP.add_fin _ _
  rw [val, val, e]
  rcases le_total b a with hab | hab
  · rw [max_eq_left hab, min_eq_right hab] at h1
    have e2 : (a : ℝ) / 2 ^ 62 - b / 2 ^ 62 = ((a - b : Nat) : ℝ) / (1 : Nat) / 2 ^ 62 := by
      rw [Nat.cast_sub hab]; push_cast; ring
    rw [e2, h1]
    show FNum.abs (FNum.fin _) = FNum.fin _
    simp only [FNum.abs]
    rw [abs_of_nonneg (by positivity)]
  · rw [max_eq_right hab, min_eq_left hab] at h1
    have e2 : (a : ℝ) / 2 ^ 62 - b / 2 ^ 62 = -(((b - a : Nat) : ℝ) / (1 : Nat) / 2 ^ 62) := by
      rw [Nat.cast_sub hab]; push_cast; ring
    rw [e2, (Rounding.binary64 ω).odd, h1]
    show FNum.abs (FNum.neg (FNum.fin _)) = FNum.fin _
    simp only [FNum.abs, FNum.neg]
    rw [abs_neg, abs_of_nonneg (by positivity)]

theorem lInf_val {v w : List Nat} {n : Nat} (h : lInf? v w = some n) :
    getDistance (some .lInf) (v.map (val (ω := ω))) (w.map val) = .ok (val n) := by
  unfold lInf? at h
  simp only [bind, Option.bind_eq_some_iff] at h
  obtain ⟨u, h1, h2⟩ := h
  have e : (vzip Arith.sub (v.map (val (ω := ω))) (w.map val)).map Arith.abs = u.map val := by
    have h3 := mapM_map (F := fun p : Nat × Nat => Arith.abs (Arith.sub (val (ω := ω) p.1) (val p.2))) (G := val) h1
      (fun b c hb => abs_sub_val hb)
    rw [← h3, vzip, List.zipWith_map, List.map_zipWith, List.zip, List.map_zipWith]
  simp only [getDistance, e]
  cases u with
  | nil => cases h2
  | cons x xs =>
    simp only [Option.some.injEq] at h2
    rw [npMax_val, h2]

end TD.Fixed
