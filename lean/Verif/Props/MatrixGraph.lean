import Verif.Props.Graph
/-!
# Labels in drawings of matrix datasets (C64)
-/

namespace TD
open Spec

theorem withoutPointZero_cases (val : Text) :
    val = withoutPointZero val ++ ['.', '0'] ∨
    withoutPointZero val = val ∧ ∀ w, val ≠ w ++ ['.', '0'] := by
  unfold withoutPointZero
  split
  · rename_i h
    rw [List.isSuffixOf_iff_suffix] at h
    obtain ⟨w, rfl⟩ := h
    left
    simp
  · rename_i h
    right
    refine ⟨rfl, fun w hw => h ?_⟩
    rw [List.isSuffixOf_iff_suffix]
    exact ⟨w, hw.symm⟩

/-- **C64.** The labels in a drawing of a matrix dataset: row `i` is `s` and its number, column
`j` is `v` and its number (counted from 1 unless `zero_indexed`), the claim that column
`j` has value `x` is `v<number>=<value>`, without the ".0" of an integral value. -/
theorem C64_labels {X : Type} (base : Renderer Nat Nat X Text) (z : Bool) (strNat : Nat → Text)
    (strVal : X → Text) (i : Nat) (x : X) :
    let n := strNat (i + if z then 0 else 1)
    let r := matrixRenderer base z strNat strVal
    r.str (r.srcLabel i) = "s".toList ++ n ∧ r.str (r.varLabel i) = "v".toList ++ n ∧
    ((∃ w, strVal x = w ++ ".0".toList ∧
        r.str (r.claimLabel i x) = "v".toList ++ n ++ "=".toList ++ w) ∨
      (∀ w, strVal x ≠ w ++ ".0".toList) ∧
        r.str (r.claimLabel i x) = "v".toList ++ n ++ "=".toList ++ strVal x) ∧
    r.width = base.width ∧ r.nodeRadius = base.nodeRadius ∧ r.colours = base.colours := by
  have hn : strNat (if z then i else i + 1) = strNat (i + if z then 0 else 1) := by
    cases z <;> rfl
  refine ⟨?_, ?_, ?_, rfl, rfl, rfl⟩
  · show 's' :: strNat (if z then i else i + 1) = _
    rw [hn]; rfl
  · show 'v' :: strNat (if z then i else i + 1) = _
    rw [hn]; rfl
  · have hc : (matrixRenderer base z strNat strVal).str
        ((matrixRenderer base z strNat strVal).claimLabel i x) =
        'v' :: strNat (if z then i else i + 1) ++ '=' :: withoutPointZero (strVal x) := rfl
    rcases withoutPointZero_cases (strVal x) with h | ⟨h, h'⟩
    · refine .inl ⟨withoutPointZero (strVal x), h, ?_⟩
      rw [hc, hn]
      simp
    · refine .inr ⟨h', ?_⟩
      rw [hc, hn, h]
      simp

/-- **C64.** Different nodes have different labels, if numbers have different texts without
`=`, and no value is written like another one with ".0" appended (Python floats: integral
ones always end in ".0"). -/
theorem C64_distinct {X : Type} (base : Renderer Nat Nat X Text) (z : Bool) (strNat : Nat → Text)
    (strVal : X → Text) (hn : Function.Injective strNat) (heq : ∀ n, '=' ∉ strNat n)
    (hv : Function.Injective strVal) (h0 : ∀ x y, strVal x ≠ strVal y ++ ".0".toList) :
    let r := matrixRenderer base z strNat strVal
    Function.Injective (fun h : NodeHint Nat Nat X => r.str (match h with
      | .source i => r.srcLabel i
      | .var i => r.varLabel i
      | .claim i x => r.claimLabel i x)) := by
  have key : ∀ i j : Nat, strNat (if z then i else i + 1) = strNat (if z then j else j + 1) → i = j := by
    intro i j h
    have := hn h
    cases z <;> simp at this <;> omega
  have hw : Function.Injective fun x => withoutPointZero (strVal x) := by
    intro x y h
    simp only at h
    apply hv
    rcases withoutPointZero_cases (strVal x) with hx | ⟨hx, -⟩ <;>
      rcases withoutPointZero_cases (strVal y) with hy | ⟨hy, -⟩
    · rw [hx, hy, h]
    · exact absurd (by rw [hx, h, hy]; rfl) (h0 x y)
    · exact absurd (by rw [hy, ← h, hx]; rfl) (h0 y x)
    · rw [← hx, ← hy, h]
  have split : ∀ (a b : Text) (c d : Text), '=' ∉ a → '=' ∉ b → a ++ '=' :: c = b ++ '=' :: d → a = b ∧ c = d := by
    intro a
    induction a with
    | nil =>
      intro b c d _ hb h
      cases b with
      | nil => simpa using h
      | cons y b =>
        simp only [List.nil_append, List.cons_append, List.cons.injEq] at h
        exact absurd h.1 (by rintro rfl; simp at hb)
    | cons x a ih =>
      intro b c d ha hb h
      cases b with
      | nil =>
        simp only [List.nil_append, List.cons_append, List.cons.injEq] at h
        exact absurd h.1 (by rintro rfl; simp at ha)
      | cons y b =>
        simp only [List.cons_append, List.cons.injEq] at h
        obtain ⟨rfl, h⟩ := h
        simp only [List.mem_cons, not_or] at ha hb
        obtain ⟨rfl, rfl⟩ := ih b c d ha.2 hb.2 h
        exact ⟨rfl, rfl⟩
  have noeq : ∀ (n : Nat) (c d : Text), strNat n = c ++ '=' :: d → False := by
    intro n c d h
    apply heq n
    rw [h]; simp
  intro r a b h
  cases a with
  | source i => cases b with
    | source j =>
      have : 's' :: strNat (if z then i else i + 1) = 's' :: strNat (if z then j else j + 1) := h
      rw [key i j (List.cons.inj this).2]
    | claim j y => exact absurd (List.cons.inj h).1 (by decide)
    | var j => exact absurd (List.cons.inj h).1 (by decide)
  | claim i x => cases b with
    | source j => exact absurd (List.cons.inj h).1 (by decide)
    | claim j y =>
      have : strNat (if z then i else i + 1) ++ '=' :: withoutPointZero (strVal x) =
        strNat (if z then j else j + 1) ++ '=' :: withoutPointZero (strVal y) := (List.cons.inj h).2
      obtain ⟨h1, h2⟩ := split _ _ _ _ (heq _) (heq _) this
      rw [key i j h1, hw h2]
    | var j => exact (noeq _ _ _ (List.cons.inj h).2.symm).elim
  | var i => cases b with
    | source j => exact absurd (List.cons.inj h).1 (by decide)
    | claim j y => exact (noeq _ _ _ (List.cons.inj h).2).elim
    | var j =>
      have : 'v' :: strNat (if z then i else i + 1) = 'v' :: strNat (if z then j else j + 1) := h
      rw [key i j (List.cons.inj this).2]

/-- Numbers in unary, values as `III.0`: the hypotheses hold. -/
example : Function.Injective (fun n : Nat => List.replicate n 'I') ∧
    (∀ n : Nat, '=' ∉ List.replicate n 'I') ∧
    Function.Injective (fun n : Nat => List.replicate n 'I' ++ ".0".toList) ∧
    ∀ x y : Nat, List.replicate x 'I' ++ ".0".toList ≠
      (List.replicate y 'I' ++ ".0".toList) ++ ".0".toList := by
  refine ⟨fun a b h => by simpa using congrArg List.length h, fun n => by simp [List.mem_replicate],
    fun a b h => by simpa using congrArg List.length h, fun x y h => ?_⟩
  have := congrArg (fun l => l.count '.') h
  simp [List.count_append, List.count_replicate] at this

end TD
