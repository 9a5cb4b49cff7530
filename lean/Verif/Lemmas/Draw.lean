import Verif.Lemmas.Graph
/-!
# When a picture cannot be drawn
-/

namespace TD
open Spec

section
variable {β γ δ : Type}

theorem yields_spec (L : List β) (F : β → Except PyErr (List γ)) :
    (∃ ys, Renderer.yields L F = .ok ys ∧ ∀ b ∈ L, ∃ y, F b = .ok y) ∨
    (∃ e, Renderer.yields L F = .error e ∧ ∃ b ∈ L, F b = .error e) := by
  induction L with
  | nil => exact .inl ⟨[], rfl, by simp⟩
  | cons a L ih =>
    unfold Renderer.yields
    cases h : F a with
    | error e => exact .inr ⟨e, rfl, a, by simp, h⟩
    | ok y =>
      rcases ih with ⟨ys, h1, h2⟩ | ⟨e, h1, b, hb, h2⟩
      · refine .inl ⟨y ++ ys, by rw [h1]; rfl, ?_⟩
        intro b hb
        rcases List.mem_cons.1 hb with rfl | hb
        · exact ⟨y, h⟩
        · exact h2 b hb
      · exact .inr ⟨e, by rw [h1]; rfl, b, by simp [hb], h2⟩

/-- A stage of the drawing that makes nodes. -/
theorem stage_error {A : List β} {k : β → δ} {N : β → Except PyErr γ'} {F G : δ × Nat → Except PyErr (List γ)}
    {e : PyErr} (hy : Renderer.yields ((A.map k).zipIdx) F = .error e)
    (hG : ∀ p, G p = F p)
    (h : ∀ i (hi : i < A.length) e, G (k A[i], i) = .error e ↔ N A[i] = .error e) :
    ∃ a ∈ A, N a = .error e := by
  obtain rfl : G = F := funext hG
  rcases yields_spec ((A.map k).zipIdx) G with ⟨ys, hy', hall⟩ | ⟨e', hy', b, hb, he⟩
  · rw [hy] at hy'; cases hy'
  · rw [hy] at hy'; cases hy'
    obtain ⟨q, i⟩ := b
    have := List.mem_zipIdx hb
    have hi : i < A.length := by simpa using this.2.1
    have hq : q = k A[i] := by simpa using this.2.2
    subst hq
    exact ⟨A[i], List.getElem_mem hi, (h i hi e).1 he⟩

/-- A stage of the drawing that makes nodes. -/
theorem stage_ok {A : List β} {k : β → δ} {N : β → Except PyErr γ'} {F G : δ × Nat → Except PyErr (List γ)}
    {ys : List γ} (hy : Renderer.yields ((A.map k).zipIdx) F = .ok ys)
    (hG : ∀ p, G p = F p)
    (h : ∀ i (hi : i < A.length) e, G (k A[i], i) = .error e ↔ N A[i] = .error e) :
    ∀ a ∈ A, ∀ e, N a ≠ .error e := by
  obtain rfl : G = F := funext hG
  rcases yields_spec ((A.map k).zipIdx) G with ⟨ys', hy', hall⟩ | ⟨e', hy', b, hb, he⟩
  · intro a ha e hae
    obtain ⟨i, hi, rfl⟩ := List.getElem_of_mem ha
    obtain ⟨y, hF⟩ := hall (k A[i], i) (by
      rw [List.mem_zipIdx_iff_getElem?]; simp [hi])
    rw [(h i hi e).2 hae] at hF
    cases hF
  · rw [hy] at hy'; cases hy'

end

section
variable {S V X L α : Type} [DecidableEq S] [DecidableEq V] [DecidableEq X] [LinearOrder L] [Arith α]
variable (r : Renderer S V X L) (l : List (S × V × X)) (f : Option (V → X → X → Option α)) (H : Int)

theorem compileNode_error_iff (hint : NodeHint S V X) (label : L) (p : ℝ × ℝ) (e : PyErr) :
    r.compileNode hint label p = .error e ↔ r.colours.node hint = .error e := by
  unfold Renderer.compileNode
  cases h : r.colours.node hint with
  | error e' =>
    constructor
    · intro h; cases h; rfl
    · intro h; cases h; rfl
  | ok c =>
    constructor
    · intro h; cases h
    · intro h; cases h

/-- Drawing fails exactly if the colours of a node cannot be determined. -/
theorem body_cases (h10 : Arith.eq (Arith.ofNat 1 : α) (Arith.ofNat 0) = false)
    (hlt : ∀ a b, r.lt a b = decide (a < b)) (progress : Option ℝ) :
    (∃ es, r.body H (datasetOf l f) progress = .ok es ∧
      ∀ h, IsNode l h → ∀ e, r.colours.node h ≠ .error e) ∨
    (∃ e, r.body H (datasetOf l f) progress = .error e ∧
      ∃ h, IsNode l h ∧ r.colours.node h = .error e) := by
  obtain ⟨D, hD, hDget⟩ := varCoords_eq r l f H hlt
    (fun j hj => claimCoords_get r l f H hlt (i := j) hj)
  generalize hb : r.body H (datasetOf l f) progress = out
  unfold Renderer.body Renderer.coords at hb
  rw [labels_eq] at hb
  simp only [bind, Except.bind, pure, Except.pure] at hb
  rw [claimSortKeys_eq] at hb
  simp only at hb
  rw [hD] at hb
  simp only at hb
  rw [yields_ok (G := fun p => (if h : p.1 < (sources l).length then
      if h' : p.2 < (claims l).length then
        edge r (sourceAt r l H (sources l)[p.1]) (claimAt r l H (claims l)[p.2]) else [] else []))] at hb
  swap
  · intro p hp
    rw [nonzero_sc l f h10] at hp
    obtain ⟨i, hi, hp⟩ := List.mem_flatMap.1 hp
    obtain ⟨j, hj, rfl⟩ := List.mem_map.1 hp
    have hi := List.mem_range.1 hi
    have hj := List.mem_range.1 (List.mem_of_mem_filter hj)
    simp only [hi, hj, dite_true]
    rw [inv_claim l f hj, inv_source l f hi]
    simp only
    rw [inv_claim_val l f (List.getElem_mem hj), sourceCoords_get r l f H hlt hi,
      claimCoords_get r l f H hlt hj]
    simp only
    rw [compileEdge_eq]
  simp only at hb
  have hvar : (datasetOf l f).varIds = ((vars l).map id).zipIdx := by simp [datasetOf]
  have hsrc : (datasetOf l f).sourceIds = ((sources l).map id).zipIdx := by simp [datasetOf]
  obtain ⟨claimF, hclaimF⟩ : ∃ F : (Nat × Nat) × Nat → Except PyErr (List Entity), ∀ p, F p =
      ((datasetOf l f).valHashes.inv p.1.2).bind fun v =>
      ((datasetOf l f).varIds.inv p.1.1).bind fun v_1 =>
      ((Renderer.place (fun i => (r.width / 2, r.yCoord H i (datasetOf l f).mats.numClaims))
              (Renderer.sortKeysByValue r.ltPair
                (tab (claims l) fun c => (r.varLabel c.1, r.claimLabel c.1 c.2)))).get p.2).bind fun v_2 =>
      (D.get p.1.1).bind fun v_3 =>
      ((tab (claims l) fun c => r.claimLabel c.1 c.2).get p.2).bind fun v_4 =>
      (r.compileNode (NodeHint.claim v_1 v) v_4 v_2).bind fun v =>
      .ok (r.compileEdge v_2 v_3 ++ v) := ⟨_, fun _ => rfl⟩
  have claim_side : ∀ i (hi : i < (claims l).length) e, claimF (claimKey l (claims l)[i], i) = .error e ↔
        r.colours.node (.claim (claims l)[i].1 (claims l)[i].2) = .error e := by
    intro i hi e
    have hm := List.getElem_mem hi
    have hv := List.idxOf_lt_length_iff.2 (claim_var_mem l hm)
    rw [hclaimF, inv_claim_val l f hm, inv_claim_var l f hm]
    simp only [Except.bind]
    rw [claimCoords_get r l f H hlt hi]
    simp only [Except.bind]
    rw [show (claimKey l (claims l)[i]).1 = (vars l).idxOf (claims l)[i].1 from rfl, hDget _ hv,
      get_tab' _ _ hi]
    simp only [Except.bind]
    rw [← compileNode_error_iff r (.claim (claims l)[i].1 (claims l)[i].2)
      (r.claimLabel (claims l)[i].1 (claims l)[i].2) (claimAt r l H (claims l)[i])]
    cases r.compileNode (.claim (claims l)[i].1 (claims l)[i].2)
      (r.claimLabel (claims l)[i].1 (claims l)[i].2) (claimAt r l H (claims l)[i]) with
    | error e' => exact Iff.rfl
    | ok x =>
      constructor
      · intro h; cases h
      · intro h; cases h
  obtain ⟨varF, hvarF⟩ : ∃ F : V × Nat → Except PyErr (List Entity), ∀ p, F p =
      ((tab (vars l) r.varLabel).get p.2).bind fun v =>
      (D.get p.2).bind fun v_1 => r.compileNode (NodeHint.var p.1) v v_1 := ⟨_, fun _ => rfl⟩
  have var_side : ∀ i (hi : i < (vars l).length) e, varF (id (vars l)[i], i) = .error e ↔
        r.colours.node (.var (vars l)[i]) = .error e := by
    intro i hi e
    rw [hvarF, get_tab' _ _ hi]
    simp only [Except.bind]
    rw [hDget _ hi]
    exact compileNode_error_iff r _ _ _ _
  obtain ⟨srcF, hsrcF⟩ : ∃ F : S × Nat → Except PyErr (List Entity), ∀ p, F p =
      ((tab (sources l) r.srcLabel).get p.2).bind fun v =>
      ((Renderer.place (fun i => (r.nodeRadius, r.yCoord H i (datasetOf l f).mats.numSources))
            (Renderer.sortKeysByValue r.lt (tab (sources l) r.srcLabel))).get p.2).bind fun v_2 =>
      r.compileNode (NodeHint.source p.1) v v_2 := ⟨_, fun _ => rfl⟩
  have src_side : ∀ i (hi : i < (sources l).length) e, srcF (id (sources l)[i], i) = .error e ↔
        r.colours.node (.source (sources l)[i]) = .error e := by
    intro i hi e
    rw [hsrcF, get_tab' _ _ hi]
    simp only [Except.bind]
    rw [sourceCoords_get r l f H hlt hi]
    exact compileNode_error_iff r _ _ _ _
  split at hb
  · rename_i e1 hy
    have := stage_error (A := claims l) (k := claimKey l)
      (N := fun c => r.colours.node (.claim c.1 c.2)) hy (by intro p; rw [hclaimF]; rfl) claim_side
    obtain ⟨c, hc, he⟩ := this
    subst hb
    exact .inr ⟨_, rfl, _, .claim c hc, he⟩
  · rename_i ys1 hy1
    have h1 := stage_ok (A := claims l) (k := claimKey l)
      (N := fun c => r.colours.node (.claim c.1 c.2)) hy1 (by intro p; rw [hclaimF]; rfl) claim_side
    split at hb
    · rename_i e1 hy
      rw [hvar] at hy
      obtain ⟨c, hc, he⟩ := stage_error (A := vars l) (k := id)
        (N := fun v => r.colours.node (.var v)) hy (by intro p; rw [hvarF]; rfl) var_side
      subst hb
      exact .inr ⟨_, rfl, _, .var c hc, he⟩
    · rename_i ys2 hy2
      rw [hvar] at hy2
      have h2 := stage_ok (A := vars l) (k := id)
        (N := fun v => r.colours.node (.var v)) hy2 (by intro p; rw [hvarF]; rfl) var_side
      split at hb
      · rename_i e1 hy
        rw [hsrc] at hy
        obtain ⟨c, hc, he⟩ := stage_error (A := sources l) (k := id)
          (N := fun v => r.colours.node (.source v)) hy (by intro p; rw [hsrcF]; rfl) src_side
        subst hb
        exact .inr ⟨_, rfl, _, .source c hc, he⟩
      · rename_i ys3 hy3
        rw [hsrc] at hy3
        have h3 := stage_ok (A := sources l) (k := id)
          (N := fun v => r.colours.node (.source v)) hy3 (by intro p; rw [hsrcF]; rfl) src_side
        subst hb
        refine .inl ⟨_, rfl, ?_⟩
        intro h hh e
        cases hh with
        | source s hs => exact h3 s hs e
        | claim c hc => exact h1 c hc e
        | var v hv => exact h2 v hv e

/-- `render` fails exactly if the colours of a node cannot be determined. -/
theorem render_cases (h10 : Arith.eq (Arith.ofNat 1 : α) (Arith.ofNat 0) = false)
    (hlt : ∀ a b, r.lt a b = decide (a < b)) (st : Renderer.State S V X α) (progress : Option ℝ) :
    (∃ f', (r.render st (datasetOf l f) progress).2 = .ok f' ∧
      ∀ h, IsNode l h → ∀ e, r.colours.node h ≠ .error e) ∨
    (∃ e, (r.render st (datasetOf l f) progress).2 = .error e ∧
      ∃ h, IsNode l h ∧ r.colours.node h = .error e) := by
  have hh : r.getHeight (datasetOf l f) = heightOf r l := rfl
  unfold Renderer.render Renderer.compile
  simp only [hh]
  have e : (if heightOf r l = 0 then heightOf r l else heightOf r l) = heightOf r l := by split <;> rfl
  simp only [e]
  rcases body_cases r l f (heightOf r l) h10 hlt progress with ⟨es, h1, h2⟩ | ⟨e, h1, h2⟩
  · rw [h1]; exact .inl ⟨_, rfl, h2⟩
  · rw [h1]; exact .inr ⟨_, rfl, h2⟩

end
end TD
