import Verif.Lemmas.Draw
import Verif.Spec.Escape
import Verif.Props.Web
import Verif.Props.Range
/-!
# Exactly which requests escape with an exception (C77)
-/

namespace TD
open Spec
attribute [-instance] instBEqProd

/-! ### Differences -/

theorem foldlM_cases {β γ : Type} {F : γ → β → Except PyErr γ} {P : β → Prop} {E : PyErr → Prop} (L : List β)
    (h : ∀ k ∈ L, (P k ∧ ∀ acc, ∃ acc', F acc k = .ok acc') ∨ (¬ P k ∧ ∀ acc, ∃ e, E e ∧ F acc k = .error e))
    (acc : γ) :
    (∃ x, L.foldlM F acc = .ok x ∧ ∀ k ∈ L, P k) ∨ (∃ e, L.foldlM F acc = .error e ∧ E e ∧ ∃ k ∈ L, ¬ P k) := by
  induction L generalizing acc with
  | nil => exact .inl ⟨acc, rfl, by simp⟩
  | cons k L ih =>
    rw [List.foldlM_cons]
    rcases h k (by simp) with ⟨hP, hok⟩ | ⟨hP, herr⟩
    · obtain ⟨acc', ha⟩ := hok acc
      rw [ha]
      simp only [bind, Except.bind]
      rcases ih (fun k hk => h k (by simp [hk])) acc' with ⟨x, h1, h2⟩ | ⟨e, h1, h2, k', hk', h3⟩
      · refine .inl ⟨x, h1, fun k' hk' => ?_⟩
        rcases List.mem_cons.1 hk' with rfl | hk'
        · exact hP
        · exact h2 _ hk'
      · exact .inr ⟨e, h1, h2, k', by simp [hk'], h3⟩
    · obtain ⟨e, h1, h2⟩ := herr acc
      rw [h2]
      exact .inr ⟨e, rfl, h1, k, by simp, hP⟩

section
variable {α : Type} [Arith α]

theorem operand_cases (j : WJson α) : (Operand j ∧ ∃ x, j.operand = .ok x) ∨ (¬ Operand j ∧ j.operand = .error .typeError) := by
  cases j with
  | num x => exact .inl ⟨.num x, _, rfl⟩
  | bool b => exact .inl ⟨.bool b, _, rfl⟩
  | _ => exact .inr ⟨nofun, rfl⟩

theorem minus_cases (x : α) (j : WJson α) : (Operand j ∧ ∃ y, (WJson.num x).minus j = .ok y) ∨
    (¬ Operand j ∧ (WJson.num x).minus j = .error .typeError) := by
  rcases operand_cases j with ⟨h, y, hy⟩ | ⟨h, hy⟩
  · refine .inl ⟨h, x -. y, ?_⟩
    unfold WJson.minus
    rw [hy]; rfl
  · refine .inr ⟨h, ?_⟩
    unfold WJson.minus
    rw [hy]; rfl

theorem mem_keys_get {κ ν : Type} [DecidableEq κ] {d : Dict κ ν} {k : κ} (h : k ∈ d.keys) :
    ∃ x, d.get? k = some x := by
  cases hx : d.get? k with
  | some x => exact ⟨x, rfl⟩
  | none =>
    exfalso
    have := mem_keys_iff.1 h
    rw [hx] at this
    simp at this

theorem keys_of_get {κ ν : Type} [DecidableEq κ] {d : Dict κ ν} {k : κ} {x : ν} (h : d.get? k = some x) :
    k ∈ d.keys := List.mem_map_of_mem (f := Prod.fst) (mem_of_lookup_some h)

/-- Differences to a dictionary of numbers. -/
theorem rawDiffDict_cases {ord : List Text → List Text} (hord : ∀ L, (ord L).Perm L)
    (d1 : Dict Text (WJson α)) (d : Dict Text α) :
    (∃ D, rawDiffDict ord d1 (d.map fun p => (p.1, .num p.2)) = .ok D ∧
      ∀ k x y, d.get? k = some y → d1.get? k = some x → Operand x) ∨
    (rawDiffDict ord d1 (d.map fun p => (p.1, .num p.2)) = .error .typeError ∧
      ∃ k x y, d.get? k = some y ∧ d1.get? k = some x ∧ ¬ Operand x) := by
  have hkeys : (Dict.keys (d.map fun p => (p.1, WJson.num p.2))) = d.keys := keys_mapVal _ d
  have key := foldlM_cases (F := fun (acc : Dict Text α) k => do
      let x2 ← Dict.get (d.map fun p => (p.1, WJson.num p.2)) k
      let x1 ← d1.get k
      return acc.set k (← x2.minus x1))
    (P := fun k => ∀ x, d1.get? k = some x → Operand x) (E := (· = .typeError))
    (common ord d1.keys (Dict.keys (d.map fun p => (p.1, WJson.num p.2)))) (by
      intro k hk
      obtain ⟨h1, h2⟩ := (mem_common hord).1 hk
      rw [hkeys] at h2
      obtain ⟨x, hx⟩ := mem_keys_get h1
      obtain ⟨y, hy⟩ := mem_keys_get h2
      have e2 : Dict.get (d.map fun p => (p.1, WJson.num p.2)) k = .ok (.num y) := by
        rw [get_mapVal]
        unfold Dict.get
        rw [hy]; rfl
      have e1 : d1.get k = .ok x := by unfold Dict.get; rw [hx]
      simp only [e1, e2, bind, Except.bind, pure, Except.pure]
      rcases minus_cases y x with ⟨ho, z, hz⟩ | ⟨ho, hz⟩
      · refine .inl ⟨fun x' hx' => ?_, fun acc => ?_⟩
        · rw [hx] at hx'; cases hx'; exact ho
        · rw [hz]; exact ⟨_, rfl⟩
      · refine .inr ⟨fun h => ho (h x hx), fun acc => ?_⟩
        rw [hz]; exact ⟨_, rfl, rfl⟩) []
  rcases key with ⟨D, h1, h2⟩ | ⟨e, h1, rfl, k, hk, h3⟩
  · refine .inl ⟨D, h1, fun k x y hy hx => h2 k ?_ x hx⟩
    rw [mem_common hord, hkeys]
    exact ⟨keys_of_get hx, keys_of_get hy⟩
  · refine .inr ⟨h1, ?_⟩
    simp only [not_forall] at h3
    obtain ⟨x, hx, hno⟩ := h3
    rw [mem_common hord, hkeys] at hk
    obtain ⟨y, hy⟩ := mem_keys_get hk.2
    exact ⟨k, x, y, hy, hx, hno⟩

/-- The earlier belief scores of a variable can be compared with `d`. -/
def BeliefUsable (d : Dict Text α) (y : WJson α) : Prop :=
  ∃ b, y = .obj b ∧ ∀ k x z, d.get? k = some z → Dict.get? b k = some x → Operand x

theorem dict_cases (y : WJson α) : (∃ fs, y = .obj fs ∧ y.dict = .ok fs) ∨
    ((∀ fs, y ≠ .obj fs) ∧ y.dict = .error .attributeError) := by
  cases y with
  | obj fs => exact .inl ⟨fs, rfl, rfl⟩
  | _ => exact .inr ⟨nofun, rfl⟩

theorem rawDiffBelief_cases {ord : List Text → List Text} (hord : ∀ L, (ord L).Perm L)
    (b1 : Dict Text (WJson α)) (b : Dict Text (Dict Text α)) :
    (∃ D, rawDiffBelief ord b1 (b.map fun p => (p.1, numsObj p.2)) = .ok D ∧
      ∀ k y d, b.get? k = some d → b1.get? k = some y → BeliefUsable d y) ∨
    (∃ e, rawDiffBelief ord b1 (b.map fun p => (p.1, numsObj p.2)) = .error e ∧
      (e = .typeError ∨ e = .attributeError) ∧
      ∃ k y d, b.get? k = some d ∧ b1.get? k = some y ∧ ¬ BeliefUsable d y) := by
  have hkeys : (Dict.keys (b.map fun p => (p.1, numsObj p.2))) = b.keys := keys_mapVal _ b
  have key := foldlM_cases (F := fun (acc : Dict Text (Dict Text α)) v => do
      let v1 ← (← b1.get v).dict
      let v2 ← (← Dict.get (b.map fun p => (p.1, numsObj p.2)) v).dict
      let diffs ← rawDiffDict ord v1 v2
      return if diffs.isEmpty then acc else acc.set v diffs)
    (P := fun k => ∀ y d, b.get? k = some d → b1.get? k = some y → BeliefUsable d y)
    (E := fun e => e = .typeError ∨ e = .attributeError)
    (common ord b1.keys (Dict.keys (b.map fun p => (p.1, numsObj p.2)))) (by
      intro k hk
      obtain ⟨h1, h2⟩ := (mem_common hord).1 hk
      rw [hkeys] at h2
      obtain ⟨y, hy⟩ := mem_keys_get h1
      obtain ⟨d, hd⟩ := mem_keys_get h2
      have e2 : Dict.get (b.map fun p => (p.1, numsObj p.2)) k = .ok (numsObj d) := by
        rw [get_mapVal]
        unfold Dict.get
        rw [hd]; rfl
      have e1 : b1.get k = .ok y := by unfold Dict.get; rw [hy]
      simp only [e1, e2, bind, Except.bind, pure, Except.pure]
      have hP : (∀ y d, b.get? k = some d → b1.get? k = some y → BeliefUsable d y) ↔ BeliefUsable d y := by
        constructor
        · intro h; exact h y d hd hy
        · intro h y' d' hd' hy'
          rw [hd] at hd'; rw [hy] at hy'
          cases hd'; cases hy'; exact h
      rw [hP]
      rcases dict_cases y with ⟨fs, rfl, hyd⟩ | ⟨hne, hyd⟩
      swap
      · rw [hyd]
        refine .inr ⟨?_, fun acc => ⟨_, .inr rfl, rfl⟩⟩
        rintro ⟨fs, e, -⟩
        exact hne fs e
      · rw [hyd]
        have hnd : (numsObj d).dict = .ok (d.map fun p => (p.1, .num p.2)) := rfl
        simp only [hnd]
        rcases rawDiffDict_cases hord fs d with ⟨D, g1, g2⟩ | ⟨g1, k', x, z, g2, g3, g4⟩
        · refine .inl ⟨⟨fs, rfl, fun k x z hz hx => g2 k x z hz hx⟩, fun acc => ?_⟩
          rw [g1]; exact ⟨_, rfl⟩
        · refine .inr ⟨?_, fun acc => ?_⟩
          · rintro ⟨fs', e, h⟩
            cases e
            exact g4 (h k' x z g2 g3)
          · rw [g1]; exact ⟨_, .inl rfl, rfl⟩) []
  rcases key with ⟨D, h1, h2⟩ | ⟨e, h1, he, k, hk, h3⟩
  · refine .inl ⟨D, h1, fun k y d hd hy => h2 k ?_ y d hd hy⟩
    rw [mem_common hord, hkeys]
    exact ⟨keys_of_get hy, keys_of_get hd⟩
  · refine .inr ⟨e, h1, he, ?_⟩
    simp only [not_forall] at h3
    obtain ⟨y, d, hd, hy, hno⟩ := h3
    exact ⟨k, y, d, hd, hy, hno⟩

/-- A number of iterations as JSON. -/
def itsJson : Option α → WJson α
  | none => .null
  | some x => .num x

theorem rawDiffIterations_cases (its : WJson α) (n : Option Nat) :
    (∃ x, rawDiffIterations its (itsJson (n.map (Arith.ofNat (α := α)))) = .ok x ∧
      (n = none ∨ its = .null ∨ Operand its)) ∨
    (rawDiffIterations its (itsJson (n.map (Arith.ofNat (α := α)))) = .error .typeError ∧
      ¬ (n = none ∨ its = .null ∨ Operand its)) := by
  cases n with
  | none =>
    refine .inl ⟨none, ?_, .inl rfl⟩
    unfold rawDiffIterations
    rw [if_pos]
    rw [Bool.or_eq_true]
    exact .inr rfl
  | some n =>
    by_cases hn : its = .null
    · subst hn
      exact .inl ⟨none, rfl, .inr (.inl rfl)⟩
    · have h0 : its.isNull = false := by
        cases its <;> first | rfl | exact absurd rfl hn
      unfold rawDiffIterations
      have hi : itsJson ((some n).map (Arith.ofNat (α := α))) = .num (Arith.ofNat n) := rfl
      have hc : ¬ (its.isNull || (WJson.num (Arith.ofNat (α := α) n)).isNull) = true := by
        rw [h0]; simp [WJson.isNull]
      rw [hi, if_neg hc]
      rcases minus_cases (Arith.ofNat n) its with ⟨h, z, hz⟩ | ⟨h, hz⟩
      · rw [hz]; exact .inl ⟨_, rfl, .inr (.inr h)⟩
      · rw [hz]
        refine .inr ⟨rfl, ?_⟩
        rintro (h' | h' | h')
        · cases h'
        · exact hn h'
        · exact h h'

end

/-! ### Earlier results -/

section
variable {X : Type} [DecidableEq X] {R : Rounding}

theorem webDiff_cases {env : Env X R} (henv : WebEnvOk env) {r : Result Nat Nat X (FP R)} (hr : WellKeyed r)
    {t : Text} {j : WJson (FP R)} (hj : env.parseJson t = some j) (hb : ¬ BadPrevious env.parseJson t) :
    (∃ D, webDiff env (some t) r = .ok (.ok (some D)) ∧ Usable env r j) ∨
    (∃ e, webDiff env (some t) r = .error e ∧ (e = .typeError ∨ e = .attributeError) ∧ ¬ Usable env r j) := by
  have hget : getResultsObject env.parseJson t = resultsOfObj j := by
    unfold getResultsObject; rw [hj]
  have hunf : ∀ obj, resultsOfObj j = .ok obj →
      webDiff env (some t) r = (rawDiff env.ord obj (currentResults env r)).bind fun D => .ok (.ok (some D)) := by
    intro obj h
    unfold webDiff
    dsimp only
    rw [hget, h]
    rfl
  have hunf' : resultsOfObj j = .error .typeError → webDiff env (some t) r = .error .typeError := by
    intro h
    unfold webDiff
    dsimp only
    rw [hget, h]
  rcases dict_cases j with ⟨fs, rfl, -⟩ | ⟨hne, -⟩
  swap
  · refine .inr ⟨.typeError, ?_, .inl rfl, ?_⟩
    · refine hunf' ?_
      cases j <;> first | rfl | exact absurd rfl (hne _)
    · rintro ⟨fs, _, _, _, _, e, -⟩
      exact hne fs e
  have hfield : ∀ n ∈ ["trust", "belief", "time", "iterations"], ∃ y, Dict.get? fs n.toList = some y := by
    intro n hn
    cases h : Dict.get? fs n.toList with
    | some y => exact ⟨y, rfl⟩
    | none => exact absurd (.inr ⟨fs, hj, n, hn, h⟩) hb
  obtain ⟨tr, f1⟩ := hfield "trust" (by simp)
  obtain ⟨be, f2⟩ := hfield "belief" (by simp)
  obtain ⟨ti, f3⟩ := hfield "time" (by simp)
  obtain ⟨its, f4⟩ := hfield "iterations" (by simp)
  have hobj : resultsOfObj (.obj fs) = .ok ⟨tr, be, ti, its⟩ := by
    unfold resultsOfObj
    simp only [WJson.item, Dict.get, f1, f2, f3, f4, bind, Except.bind, pure, Except.pure]
  replace hunf := hunf _ hobj
  rw [current_eq env henv.strNat henv.strVal hr] at hunf
  have huse : Usable env r (.obj fs) ↔ ∃ trust belief, tr = .obj trust ∧ be = .obj belief ∧ Operand ti ∧
      (∀ s x, s ∈ r.trust.keys → Dict.get? trust (env.strNat s) = some x → Operand x) ∧
      (∀ v y, v ∈ r.belief.keys → Dict.get? belief (env.strNat v) = some y → ∃ b, y = .obj b ∧
        ∀ val z x, beliefAt r.belief v val = some z → Dict.get? b (env.strVal val) = some x → Operand x) ∧
      (r.iterations = none ∨ its = .null ∨ Operand its) := by
    constructor
    · rintro ⟨fs', trust, belief, time, its', e, g1, g2, g3, g4, g5, g6, g7, g8⟩
      cases e
      rw [f1] at g1; rw [f2] at g2; rw [f3] at g3; rw [f4] at g4
      cases g1; cases g2; cases g3; cases g4
      exact ⟨trust, belief, rfl, rfl, g5, g6, g7, g8⟩
    · rintro ⟨trust, belief, rfl, rfl, g5, g6, g7, g8⟩
      exact ⟨fs, trust, belief, ti, its, rfl, f1, f2, f3, f4, g5, g6, g7, g8⟩
  rw [huse]
  obtain ⟨cur, hcur⟩ : ∃ cur, rawOf (texts env.strNat r.trust)
      (texts env.strNat (r.belief.map fun p => (p.1, texts env.strVal p.2))) r.time
      (r.iterations.map Arith.ofNat) = cur := ⟨_, rfl⟩
  have c1 : cur.trust = numsObj (texts env.strNat r.trust) := by rw [← hcur]; rfl
  have c2 : cur.belief = .obj ((texts env.strNat (r.belief.map fun p => (p.1, texts env.strVal p.2))).map
      fun p => (p.1, numsObj p.2)) := by rw [← hcur]; rfl
  have c3 : cur.time = .num r.time := by rw [← hcur]; rfl
  have c4 : cur.iterations = itsJson (r.iterations.map Arith.ofNat) := by
    rw [← hcur]; cases r.iterations <;> rfl
  rw [hcur] at hunf
  unfold rawDiff at hunf
  simp only [bind, Except.bind, pure, Except.pure, c1, c2, c3, c4] at hunf
  -- time
  rcases minus_cases r.time ti with ⟨ho, z, hz⟩ | ⟨ho, hz⟩
  swap
  · rw [hz] at hunf
    exact .inr ⟨_, hunf, .inl rfl, fun ⟨_, _, _, _, h, _⟩ => ho h⟩
  rw [hz] at hunf
  simp only at hunf
  -- trust
  rcases dict_cases tr with ⟨trust, rfl, htr⟩ | ⟨hne, htr⟩
  swap
  · rw [htr] at hunf
    exact .inr ⟨_, hunf, .inr rfl, fun ⟨_, _, h, _⟩ => hne _ h⟩
  rw [htr] at hunf
  have hnum : (numsObj (texts env.strNat r.trust)).dict =
      .ok ((texts env.strNat r.trust).map fun p => (p.1, .num p.2)) := rfl
  simp only [hnum] at hunf
  rcases rawDiffDict_cases henv.ord trust (texts env.strNat r.trust) with ⟨D, g1, g2⟩ | ⟨g1, k, x, y, g2, g3, g4⟩
  swap
  · rw [g1] at hunf
    refine .inr ⟨_, hunf, .inl rfl, ?_⟩
    rintro ⟨_, _, e, -, -, h, -⟩
    cases e
    obtain ⟨s, rfl⟩ := texts_only g2
    rw [texts_get henv.strNat] at g2
    exact g4 (h s x (keys_of_get g2) g3)
  rw [g1] at hunf
  simp only at hunf
  -- belief
  rcases dict_cases be with ⟨belief, rfl, hbe⟩ | ⟨hne, hbe⟩
  swap
  · rw [hbe] at hunf
    exact .inr ⟨_, hunf, .inr rfl, fun ⟨_, _, _, h, _⟩ => hne _ h⟩
  rw [hbe] at hunf
  have hnum' : (WJson.obj ((texts env.strNat (r.belief.map fun p => (p.1, texts env.strVal p.2))).map
      fun p => (p.1, numsObj p.2))).dict = .ok ((texts env.strNat
        (r.belief.map fun p => (p.1, texts env.strVal p.2))).map fun p => (p.1, numsObj p.2)) := rfl
  simp only [hnum'] at hunf
  have hb1 : ∀ v (d : Dict Text (FP R)), (texts env.strNat (r.belief.map fun p => (p.1, texts env.strVal p.2))).get?
      (env.strNat v) = some d ↔ ∃ d', r.belief.get? v = some d' ∧ d = texts env.strVal d' := by
    intro v d
    rw [texts_get henv.strNat, lookup_mapVal]
    cases r.belief.get? v with
    | none => simp
    | some d' => simp [eq_comm]
  have hb2 : ∀ v d' y, r.belief.get? v = some d' → (BeliefUsable (texts env.strVal d') y ↔
      ∃ b, y = .obj b ∧ ∀ val z x, beliefAt r.belief v val = some z → Dict.get? b (env.strVal val) = some x →
        Operand x) := by
    intro v d' y hv
    have hba : ∀ val, beliefAt r.belief v val = d'.get? val := by
      intro val; unfold beliefAt; rw [hv]; rfl
    unfold BeliefUsable
    constructor
    · rintro ⟨b, rfl, h⟩
      refine ⟨b, rfl, fun val z x hz hx => h _ x z ?_ hx⟩
      rw [texts_get henv.strVal, ← hba]; exact hz
    · rintro ⟨b, rfl, h⟩
      refine ⟨b, rfl, fun k x z hz hx => ?_⟩
      obtain ⟨val, rfl⟩ := texts_only hz
      rw [texts_get henv.strVal, ← hba] at hz
      exact h val z x hz hx
  rcases rawDiffBelief_cases henv.ord belief (texts env.strNat (r.belief.map fun p => (p.1, texts env.strVal p.2)))
    with ⟨D', k1, k2⟩ | ⟨e, k1, he, k, y, d, k2, k3, k4⟩
  swap
  · rw [k1] at hunf
    refine .inr ⟨_, hunf, he, ?_⟩
    rintro ⟨_, _, -, e, -, -, h, -⟩
    cases e
    obtain ⟨v, rfl⟩ := texts_only k2
    obtain ⟨d', hd', rfl⟩ := (hb1 v d).1 k2
    exact k4 ((hb2 v d' y hd').2 (h v y (keys_of_get hd') k3))
  rw [k1] at hunf
  simp only at hunf
  rcases rawDiffIterations_cases its r.iterations with ⟨x, m1, m2⟩ | ⟨m1, m2⟩
  swap
  · rw [m1] at hunf
    exact .inr ⟨_, hunf, .inl rfl, fun ⟨_, _, _, _, _, _, _, h⟩ => m2 h⟩
  rw [m1] at hunf
  refine .inl ⟨_, hunf, trust, belief, rfl, rfl, ho, ?_, ?_, m2⟩
  · intro s x hs hx
    obtain ⟨y, hy⟩ := mem_keys_get hs
    exact g2 (env.strNat s) x y (by rw [texts_get henv.strNat]; exact hy) hx
  · intro v y hv hy
    obtain ⟨d', hd'⟩ := mem_keys_get hv
    exact (hb2 v d' y hd').1 (k2 _ y _ ((hb1 v _).2 ⟨d', hd', rfl⟩) hy)

end

/-! ### Colours -/

section
variable {R : Rounding}

theorem undrawable_unique {x : FP R} {e e' : PyErr} (h : Undrawable x e) (h' : Undrawable x e') : e = e' := by
  have key : ∀ y : FNum, ∀ {e e' : PyErr}, x *. Arith.ofNat 9 = (show FP R from y) → Undrawable x e →
      Undrawable x e' → e = e' := by
    intro y e e' hy h h'
    cases h with
    | nan h1 =>
      cases h' with
      | nan => rfl
      | inf h2 => rw [h1] at h2; rcases h2 with h2 | h2 <;> cases h2
      | low z h2 => rw [h1] at h2; cases h2
    | inf h1 =>
      cases h' with
      | nan h2 => rw [h2] at h1; rcases h1 with h1 | h1 <;> cases h1
      | inf => rfl
      | low z h2 => rw [h2] at h1; rcases h1 with h1 | h1 <;> cases h1
    | low z h1 =>
      cases h' with
      | nan h2 => rw [h1] at h2; cases h2
      | inf h2 => rw [h1] at h2; rcases h2 with h2 | h2 <;> cases h2
      | low => rfl
  exact key _ rfl h h'

theorem graded_cases (x : FP R) : (∃ c, gradedColours x = .ok c ∧ ∀ e, ¬ Undrawable x e) ∨
    (∃ e, gradedColours x = .error e ∧ Undrawable x e) := by
  have h9 : gradientColours.length = 9 := rfl
  unfold gradedColours
  rw [h9]
  obtain ⟨z, hz⟩ : ∃ z : FP R, x *. Arith.ofNat 9 = z := ⟨_, rfl⟩
  rw [hz]
  have key : ∀ y : FNum, (show FP R from y) = z → (∃ c, (do
      let i ← pyInt z
      let index := min i ((9 : Nat) - 1)
      let label : Colour := if Arith.lt x (Arith.lit 1 2) then [0, 0, 0] else [1, 1, 1]
      return (← pyIndex gradientColours index, label) : Except PyErr (Colour × Colour)) = .ok c ∧
        ∀ e, ¬ Undrawable x e) ∨ (∃ e, (do
      let i ← pyInt z
      let index := min i ((9 : Nat) - 1)
      let label : Colour := if Arith.lt x (Arith.lit 1 2) then [0, 0, 0] else [1, 1, 1]
      return (← pyIndex gradientColours index, label) : Except PyErr (Colour × Colour)) = .error e ∧
        Undrawable x e) := by
    intro y hy
    subst hy
    cases y with
    | nan => exact .inr ⟨_, rfl, .nan hz⟩
    | pinf => exact .inr ⟨_, rfl, .inf (.inl hz)⟩
    | ninf => exact .inr ⟨_, rfl, .inf (.inr hz)⟩
    | fin v =>
      have hp : pyInt (show FP R from FNum.fin v) = .ok (truncInt v) := rfl
      simp only [hp, bind, Except.bind, pure, Except.pure]
      have hlow : v ≤ -10 ↔ truncInt v + 9 < 0 := by
        unfold truncInt
        split
        · rename_i h0
          have := Int.floor_nonneg.2 h0
          constructor
          · intro h; linarith
          · intro h; omega
        · rw [show (⌈v⌉ + 9 < 0) ↔ ⌈v⌉ ≤ -10 by omega, Int.ceil_le]
          norm_num
      by_cases hv : v ≤ -10
      · refine .inr ⟨.indexError, ?_, .low v hz hv⟩
        have h1 := hlow.1 hv
        unfold pyIndex
        rw [h9]
        have h2 : min (truncInt v) (((9 : Nat) : Int) - 1) = truncInt v := by omega
        simp only [h2]
        rw [if_pos (show truncInt v < 0 by omega), if_pos (by simpa using h1)]
      · have h1 : ¬ truncInt v + 9 < 0 := fun h => hv (hlow.2 h)
        refine .inl ?_
        have hok : ∃ c, pyIndex gradientColours (min (truncInt v) (((9 : Nat) : Int) - 1)) = .ok c := by
          unfold pyIndex
          rw [h9]
          simp only
          set j : Int := if min (truncInt v) (((9 : Nat) : Int) - 1) < 0 then
            min (truncInt v) (((9 : Nat) : Int) - 1) + ((9 : Nat) : Int) else min (truncInt v) (((9 : Nat) : Int) - 1) with hj
          have hj0 : 0 ≤ j := by rw [hj]; split <;> omega
          have hj9 : j < 9 := by rw [hj]; split <;> omega
          rw [if_neg (by omega)]
          have hlt : j.toNat < gradientColours.length := by rw [h9]; omega
          rw [List.getElem?_eq_getElem hlt]
          exact ⟨_, rfl⟩
        obtain ⟨c, hc⟩ := hok
        rw [hc]
        refine ⟨_, rfl, ?_⟩
        intro e he
        cases he with
        | nan h => rw [hz] at h; cases h
        | inf h => rw [hz] at h; rcases h with h | h <;> cases h
        | low y h hy =>
          rw [hz] at h
          have : v = y := by
            have := h
            injection this
          exact hv (this ▸ hy)
  exact key z rfl

variable {S V X : Type} [DecidableEq S] [DecidableEq V] [DecidableEq X]

/-- The colours of the nodes: an exception is that of a score. -/
theorem nodes_cases {l : List (S × V × X)} {r : Result S V X (FP R)} (hc : Complete l r) (e : PyErr) :
    (∃ h, IsNode l h ∧ (gradientScheme r).node h = .error e) ↔ ∃ x, ScoreOf r x ∧ Undrawable x e := by
  have hsrc : ∀ s x, r.trust.get? s = some x →
      ((gradientScheme r).node (.source s) = .error e ↔ Undrawable x e) := by
    intro s x hs
    have hg : r.trust.get s = .ok x := by unfold Dict.get; rw [hs]
    unfold gradientScheme
    simp only [defaultScheme, bind, Except.bind, pure, Except.pure, hg]
    rcases graded_cases x with ⟨c, h1, h2⟩ | ⟨e', h1, h2⟩
    · rw [h1]
      constructor
      · intro h; cases h
      · intro h; exact absurd h (h2 e)
    · rw [h1]
      constructor
      · intro h; cases h; exact h2
      · intro h
        rw [undrawable_unique h h2]
  have hclm : ∀ v y x, beliefAt r.belief v y = some x →
      ((gradientScheme r).node (.claim v y) = .error e ↔ Undrawable x e) := by
    intro v y x hs
    unfold beliefAt at hs
    cases hb : r.belief.get? v with
    | none => rw [hb] at hs; cases hs
    | some b =>
      rw [hb] at hs
      have hs' : b.get? y = some x := hs
      have hg : r.belief.get v = .ok b := by unfold Dict.get; rw [hb]
      have hg' : b.get y = .ok x := by unfold Dict.get; rw [hs']
      unfold gradientScheme
      simp only [defaultScheme, bind, Except.bind, pure, Except.pure, hg, hg']
      rcases graded_cases x with ⟨c, h1, h2⟩ | ⟨e', h1, h2⟩
      · rw [h1]
        constructor
        · intro h; cases h
        · intro h; exact absurd h (h2 e)
      · rw [h1]
        constructor
        · intro h; cases h; exact h2
        · intro h
          rw [undrawable_unique h h2]
  constructor
  · rintro ⟨h, hn, he⟩
    cases hn with
    | source s hs =>
      have := (hc.1 s).2 ((mem_allSources l).2 hs)
      obtain ⟨x, hx⟩ := Option.isSome_iff_exists.1 this
      exact ⟨x, .inl ⟨s, hx⟩, (hsrc s x hx).1 he⟩
    | claim c hs =>
      have := (hc.2 c.1 c.2).2 ((mem_allClaims l).2 hs)
      obtain ⟨x, hx⟩ := Option.isSome_iff_exists.1 this
      exact ⟨x, .inr ⟨c.1, c.2, hx⟩, (hclm c.1 c.2 x hx).1 he⟩
    | var v hv => cases he
  · rintro ⟨x, ⟨s, hs⟩ | ⟨v, y, hs⟩, hu⟩
    · exact ⟨_, .source s ((mem_allSources l).1 ((hc.1 s).1 (by rw [hs]; rfl))), (hsrc s x hs).2 hu⟩
    · exact ⟨_, .claim (v, y) ((mem_allClaims l).1 ((hc.2 v y).1 (Option.isSome_iff_exists.2 ⟨x, hs⟩))),
        (hclm v y x hs).2 hu⟩

end

/-! ### Pictures and animations -/

section
variable {X : Type} [DecidableEq X] {R : Rounding}

theorem web_graph_cases (env : Env X R) {l : List (Nat × Nat × X)} {d : Dataset Nat Nat X (FP R)}
    (hd : d = datasetOf l none) {r : Result Nat Nat X (FP R)} (hc : Complete l r) :
    (∃ f, ((webRenderer env (gradientScheme r)).render {} d none).2 = .ok f ∧
      ∀ x e, ScoreOf r x → ¬ Undrawable x e) ∨
    (∃ e, ((webRenderer env (gradientScheme r)).render {} d none).2 = .error e ∧
      ∃ x, ScoreOf r x ∧ Undrawable x e) := by
  subst hd
  have := render_cases (webRenderer env (gradientScheme r)) l none (fp_one_ne_zero R)
    (fun a b => decide_eq_decide.2 Iff.rfl) {} none
  rcases this with ⟨f, h1, h2⟩ | ⟨e, h1, h2⟩
  · refine .inl ⟨f, by convert h1, fun x e hx hu => ?_⟩
    obtain ⟨h, hh, he⟩ := (nodes_cases hc e).2 ⟨x, hx, hu⟩
    exact h2 h hh e he
  · exact .inr ⟨e, by convert h1, (nodes_cases hc e).1 h2⟩

theorem frames_cases {l : List (Nat × Nat × X)} {L : Type} [LinearOrder L] (r : Renderer Nat Nat X L)
    (hlt : ∀ a b, r.lt a b = decide (a < b)) (num : Int) (rs : List (Nat × Result Nat Nat X (FP R)))
    (hc : ∀ p ∈ rs, Complete l p.2) (sch : Scheme Nat Nat X) (st : Renderer.State Nat Nat X (FP R)) :
    ((frameLoop (datasetOf l none) false num rs { r with colours := sch } st).2.2 = none ∧
      ∀ p ∈ rs, ∀ x e, ScoreOf p.2 x → ¬ Undrawable x e) ∨
    (∃ e, (frameLoop (datasetOf l none) false num rs { r with colours := sch } st).2.2 = some e ∧
      ∃ p ∈ rs, ∃ x, ScoreOf p.2 x ∧ Undrawable x e) := by
  induction rs generalizing sch st with
  | nil => exact .inl ⟨rfl, by simp⟩
  | cons p rs ih =>
    obtain ⟨i, res⟩ := p
    unfold frameLoop
    simp only [Bool.false_eq_true, false_and, if_false]
    have hcp := hc (i, res) (by simp)
    have h := render_cases { r with colours := gradientScheme res } l none (fp_one_ne_zero R) hlt st none
    cases hren : Renderer.render { r with colours := gradientScheme res } st (datasetOf l none) none with
    | mk st' out =>
      rw [hren] at h
      rcases h with ⟨f, h1, h2⟩ | ⟨e, h1, h2⟩
      · have h1' : out = .ok f := h1
        subst h1'
        rcases ih (fun q hq => hc q (by simp [hq])) (gradientScheme res) st' with ⟨g1, g2⟩ | ⟨e, g1, q, hq, g2⟩
        · refine .inl ⟨g1, ?_⟩
          intro q hq x e hx hu
          rcases List.mem_cons.1 hq with rfl | hq
          · obtain ⟨h, hh, he⟩ := (nodes_cases hcp e).2 ⟨x, hx, hu⟩
            exact h2 h hh e he
          · exact g2 q hq x e hx hu
        · exact .inr ⟨e, g1, q, by simp [hq], g2⟩
      · have h1' : out = .error e := h1
        subst h1'
        exact .inr ⟨e, rfl, (i, res), by simp, (nodes_cases hcp e).1 h2⟩

theorem complete_run {l : List (Nat × Nat × X)} {a : AnyAlg (FP R)} {fuel : Nat} {clock : Nat → FP R}
    {r : Result Nat Nat X (FP R)} (hd : Dataset.mk' l false none = .ok (datasetOf (α := FP R) l none))
    (h : a.run (datasetOf l none) fuel clock = .ok r) : Complete l r := by
  cases a with
  | voting => exact (C76_voting l false none _ hd clock r h).1
  | iter c =>
    simp only [AnyAlg.run] at h
    rw [run_eq] at h
    cases he : c.exec (matsOf l none) fuel {} with
    | error e => rw [he] at h; cases h
    | ok out =>
      rw [he] at h
      cases h
      exact complete_sized (exec_sized (matsOf_wf l none) he).1 _ _

theorem complete_runIter {l : List (Nat × Nat × X)} {c : AlgCfg (FP R)} {fuel : Nat} {clock : Nat → FP R}
    {rs : List (Result Nat Nat X (FP R))}
    (h : c.runIter (datasetOf l none) fuel clock = .ok rs) : ∀ r ∈ rs, Complete l r := by
  rw [runIter_eq] at h
  cases he : c.exec (matsOf l none) fuel {} with
  | error e => rw [he] at h; cases h
  | ok out =>
    rw [he] at h
    cases h
    intro r hr
    obtain ⟨p, hp, rfl⟩ := List.mem_map.1 hr
    have hp' : p.2 ∈ out.log := by
      have := List.mem_map_of_mem (f := Prod.snd) hp
      rwa [enum_map_snd] at this
    exact complete_sized ((exec_sized (matsOf_wf l none) he).2 _ hp') _ _

theorem web_animation_cases (env : Env X R) {l : List (Nat × Nat × X)} (i : Nat) {c : AlgCfg (FP R)}
    {rs : List (Result Nat Nat X (FP R))}
    (hrs : c.runIter (datasetOf l none) env.fuel (env.clock (2 * i + 1)) = .ok rs) :
    (∃ doc, webAnimation env i (.iter c) (datasetOf l none) = .ok (some doc) ∧
      ∀ r ∈ rs, ∀ x e, ScoreOf r x → ¬ Undrawable x e) ∨
    (∃ e, webAnimation env i (.iter c) (datasetOf l none) = .error e ∧
      ∃ r ∈ rs, ∃ x, ScoreOf r x ∧ Undrawable x e) := by
  have hcomp := complete_runIter hrs
  have ha := (C57_constructor .json (webRenderer env defaultScheme)
    (some (webRenderer env defaultScheme, .json)) 0.2).2.2 _ _ (by norm_num) rfl
  rw [if_pos (by decide)] at ha
  have hf := frames_cases (l := l) (webRenderer env defaultScheme) (fun a b => decide_eq_decide.2 Iff.rfl)
    ((rs.length : Int) - 1) (enum rs)
    (fun p hp => hcomp p.2 (List.mem_of_getElem? (mem_enum'.1 hp))) (webRenderer env defaultScheme).colours {}
  have hmem : ∀ r, r ∈ rs ↔ ∃ p ∈ enum rs, p.2 = r := by
    intro r
    constructor
    · intro hr
      obtain ⟨j, hj⟩ := List.mem_iff_getElem?.1 hr
      exact ⟨(j, r), mem_enum'.2 hj, rfl⟩
    · rintro ⟨p, hp, rfl⟩
      exact List.mem_of_getElem? (mem_enum'.1 hp)
  have hw : webAnimation env i (.iter c) (datasetOf l none) =
      match frameLoop (datasetOf l none) false ((rs.length : Int) - 1) (enum rs) (webRenderer env defaultScheme) {} with
      | (_, _, some e) => .error e
      | (_, fs, none) => .ok (some (.obj [("fps".toList, .num (1 / 0.2)), ("frames".toList, .arr (fs.map jsonDoc))])) := by
    unfold webAnimation
    simp only [ha, bind, Except.bind, pure, Except.pure]
    unfold jsonAnimation getFrames
    rw [hrs]
    simp only
    generalize frameLoop (datasetOf l none) false ((rs.length : Int) - 1) (enum rs) (webRenderer env defaultScheme) {} = z
    obtain ⟨z1, fs, z2⟩ := z
    cases z2 <;> rfl
  rw [hw]
  have hf' : ((frameLoop (datasetOf l none) false ((rs.length : Int) - 1) (enum rs) (webRenderer env defaultScheme) {}).2.2 = none ∧
      ∀ p ∈ enum rs, ∀ x e, ScoreOf p.2 x → ¬ Undrawable x e) ∨
    (∃ e, (frameLoop (datasetOf l none) false ((rs.length : Int) - 1) (enum rs) (webRenderer env defaultScheme) {}).2.2 = some e ∧
      ∃ p ∈ enum rs, ∃ x, ScoreOf p.2 x ∧ Undrawable x e) := by convert hf
  generalize frameLoop (datasetOf l none) false ((rs.length : Int) - 1) (enum rs) (webRenderer env defaultScheme) {} = z at hf' ⊢
  obtain ⟨z1, fs, z2⟩ := z
  rcases hf' with ⟨h1, h2⟩ | ⟨e, h1, p, hp, h2⟩
  · have h1' : z2 = none := h1
    subst h1'
    refine .inl ⟨_, rfl, fun r hr => ?_⟩
    obtain ⟨p, hp, rfl⟩ := (hmem r).1 hr
    exact h2 p hp
  · have h1' : z2 = some e := h1
    subst h1'
    exact .inr ⟨e, rfl, p.2, (hmem _).2 ⟨p, hp, rfl⟩, h2⟩


/-! ### Requests -/

section
variable {env : Env X R} {req : Request} {d : Dataset Nat Nat X (FP R)} {i : Nat} {a : AnyAlg (FP R)}
  {r : Result Nat Nat X (FP R)} {fields : Dict Field (OutVal Nat Nat X (FP R))} {frame : Frame}
  {anim : Option Json} {e : PyErr} {s : Nat} {D : Option (RawDiff (FP R))}
  (hf : getOutputObj env.ltVal r none none = .ok fields)
include hf

theorem present_graph (h : ((webRenderer env (gradientScheme r)).render {} d none).2 = .error e) :
    present env req d i a r = .error e := by
  unfold present
  rw [hf, h]; rfl

theorem present_animation (hg : ((webRenderer env (gradientScheme r)).render {} d none).2 = .ok frame)
    (h : webAnimation env i a d = .error e) : present env req d i a r = .error e := by
  unfold present
  rw [hf, hg, h]; rfl

theorem present_diff (hg : ((webRenderer env (gradientScheme r)).render {} d none).2 = .ok frame)
    (ha : webAnimation env i a d = .ok anim) (h : webDiff env req.previousResults r = .error e) :
    present env req d i a r = .error e := by
  unfold present
  rw [hf, hg, ha, h]; rfl

theorem present_fails (hg : ((webRenderer env (gradientScheme r)).render {} d none).2 = .ok frame)
    (ha : webAnimation env i a d = .ok anim) (h : webDiff env req.previousResults r = .ok (.error s)) :
    present env req d i a r = .ok (.error s) := by
  unfold present
  rw [hf, hg, ha, h]; rfl

theorem present_ok (hg : ((webRenderer env (gradientScheme r)).render {} d none).2 = .ok frame)
    (ha : webAnimation env i a d = .ok anim) (h : webDiff env req.previousResults r = .ok (.ok D)) :
    present env req d i a r = .ok (.ok ⟨fields, jsonDoc frame, anim, D⟩) := by
  unfold present
  rw [hf, hg, ha, h]; rfl

end

theorem anim_cases (env : Env X R) {l : List (Nat × Nat × X)} (i : Nat) (a : AnyAlg (FP R))
    {r : Result Nat Nat X (FP R)} (hrun : a.run (datasetOf l none) env.fuel (env.clock (2 * i)) = .ok r) :
    (∃ anim, webAnimation env i a (datasetOf l none) = .ok anim ∧
      ∀ cfg rs, a = .iter cfg → cfg.runIter (datasetOf l none) env.fuel (env.clock (2 * i + 1)) = .ok rs →
        ∀ r ∈ rs, ∀ x e, ScoreOf r x → ¬ Undrawable x e) ∨
    (∃ e cfg rs r' x, a = .iter cfg ∧ webAnimation env i a (datasetOf l none) = .error e ∧
      cfg.runIter (datasetOf l none) env.fuel (env.clock (2 * i + 1)) = .ok rs ∧ r' ∈ rs ∧
      ScoreOf r' x ∧ Undrawable x e) := by
  cases a with
  | voting => exact .inl ⟨none, rfl, fun cfg rs h => by cases h⟩
  | iter cfg =>
    have hok : ∃ rs, cfg.runIter (datasetOf l none) env.fuel (env.clock (2 * i + 1)) = .ok rs := by
      have hrun' : cfg.run (datasetOf l none) env.fuel (env.clock (2 * i)) = .ok r := hrun
      rw [run_eq] at hrun'
      rw [runIter_eq]
      cases hx : cfg.exec (matsOf l none) env.fuel {} with
      | error e => rw [hx] at hrun'; cases hrun'
      | ok x => exact ⟨_, rfl⟩
    obtain ⟨rs, hrs⟩ := hok
    rcases web_animation_cases env i hrs with ⟨doc, h1, h2⟩ | ⟨e, h1, r', hr', x, h2, h3⟩
    · refine .inl ⟨_, h1, ?_⟩
      intro cfg' rs' e hrs'
      have e' : cfg = cfg' := by injection e
      subst e'
      have e'' : rs = rs' := by
        have := hrs.symm.trans hrs'
        injection this
      subst e''
      exact h2
    · exact .inr ⟨e, cfg, rs, r', x, rfl, h1, hrs, hr', h2, h3⟩

/-- One algorithm of a request. -/
theorem one_cases {env : Env X R} (henv : WebEnvOk env) {req : Request} {ps : Dict Text (PVal (FP R))}
    (hps : ParamsMean env.digit env.parseFloat req.parameters ps)
    {l : List (Nat × Nat × X)} (hd : Dataset.mk' l false none = .ok (datasetOf (α := FP R) l none))
    (i : Nat) (label : Text) :
    (∃ s, oneAlgorithm env req ps (datasetOf l none) i label = .ok (.error s) ∧
      Fails env req.previousResults ps (datasetOf l none) i label s ∧
      ∀ e, ¬ Escapes env req.previousResults ps (datasetOf l none) i label e) ∨
    (∃ out, oneAlgorithm env req ps (datasetOf l none) i label = .ok (.ok out) ∧
      (∀ s, ¬ Fails env req.previousResults ps (datasetOf l none) i label s) ∧
      ∀ e, ¬ Escapes env req.previousResults ps (datasetOf l none) i label e) ∨
    (∃ e, oneAlgorithm env req ps (datasetOf l none) i label = .error e ∧
      Escapes env req.previousResults ps (datasetOf l none) i label e) := by
  by_cases hc : ∃ c, label = (labelName c).toList
  swap
  · rw [not_exists] at hc
    refine .inl ⟨400, ?_, .unknown hc, ?_⟩
    · unfold oneAlgorithm
      rw [(prepare_ok henv hps label).2 hc]
    · intro e he
      cases he with
      | run c _ _ h => exact hc c h
      | graph c _ _ _ _ h => exact hc c h
      | animation c _ _ _ _ _ _ h => exact hc c h
      | previous c _ _ _ _ _ h => exact hc c h
  obtain ⟨c, hc⟩ := hc
  obtain ⟨a, ha, hprep⟩ := (prepare_ok henv hps label).1 c hc
  have hun : ∀ {c' a'}, label = (labelName c').toList → Constructed ps c' a' → c' = c ∧ a' = a := by
    intro c' a' h1 h2
    obtain rfl := labelName_injective (hc.symm.trans h1)
    exact ⟨rfl, constructed_unique h2 ha⟩
  cases hrun : a.run (datasetOf l none) env.fuel (env.clock (2 * i)) with
  | error e =>
    have hone : oneAlgorithm env req ps (datasetOf l none) i label = match e with
        | .convergence => .ok (.error 500)
        | .emptyDataset => .ok (.error 400)
        | e => .error e := by
      unfold oneAlgorithm
      rw [hprep]
      simp only [hrun]
      cases e <;> rfl
    have hesc : e = .convergence ∨ e = .emptyDataset →
        ∀ e, ¬ Escapes env req.previousResults ps (datasetOf l none) i label e := by
      intro h e' he
      cases he with
      | run c' a' _ h1 h2 h3 h4 h5 =>
        obtain ⟨rfl, rfl⟩ := hun h1 h2
        rw [hrun] at h3
        cases h3
        rcases h with h | h
        · exact h4 h
        · exact h5 h
      | graph c' a' r x _ h1 h2 h3 =>
        obtain ⟨rfl, rfl⟩ := hun h1 h2
        rw [hrun] at h3; cases h3
      | animation c' cfg r _ _ _ _ h1 h2 h3 =>
        obtain ⟨rfl, rfl⟩ := hun h1 h2
        simp only [AnyAlg.run] at hrun
        rw [hrun] at h3; cases h3
      | previous c' a' r _ _ _ h1 h2 h3 =>
        obtain ⟨rfl, rfl⟩ := hun h1 h2
        rw [hrun] at h3; cases h3
    by_cases h1 : e = .convergence
    · subst h1
      exact .inl ⟨500, hone, .diverged c a hc ha hrun, hesc (.inl rfl)⟩
    · by_cases h2 : e = .emptyDataset
      · subst h2
        exact .inl ⟨400, hone, .empty c a hc ha hrun, hesc (.inr rfl)⟩
      · refine .inr (.inr ⟨e, ?_, .run c a e hc ha hrun h1 h2⟩)
        rw [hone]
        cases e <;> first | rfl | exact absurd rfl h1 | exact absurd rfl h2
  | ok r =>
    have hcomp := complete_run hd hrun
    obtain ⟨K, _, key, hlt⟩ := henv.lt
    obtain ⟨fields, hf, -, -⟩ := C51_output key env.ltVal hlt r (C51_runs a _ _ _ r hrun) none none
    have hmsg : ∀ z, present env req (datasetOf l none) i a r = z → oneAlgorithm env req ps (datasetOf l none) i label =
        match z with
        | .error e => .error e
        | .ok (.error s) => .ok (.error s)
        | .ok (.ok out) => .ok (.ok (out, if (getAlgorithmParams env.ord c ps).2.isEmpty then []
            else [ignoredMessage c (getAlgorithmParams env.ord c ps).2])) := by
      intro z hz
      unfold oneAlgorithm
      rw [hprep]
      simp only [hrun, hz]
      cases z with
      | error e => rfl
      | ok z => cases z <;> rfl
    -- the graph
    rcases web_graph_cases env rfl hcomp with ⟨frame, g1, g2⟩ | ⟨e, g1, x, g2, g3⟩
    swap
    · refine .inr (.inr ⟨e, ?_, .graph c a r x e hc ha hrun g2 g3⟩)
      rw [hmsg (.error e)]
      exact present_graph hf g1
    -- the animation
    rcases anim_cases env i a hrun with ⟨anim, a1, a2⟩ | ⟨e, cfg, rs, r', x, ea, a1, a2, a3, a4, a5⟩
    swap
    · refine .inr (.inr ⟨e, ?_, .animation c cfg r r' rs x e hc (ea ▸ ha) (by rw [ea] at hrun; exact hrun) a2 a3 a4 a5⟩)
      rw [hmsg (.error e)]
      exact present_animation hf g1 a1
    -- no escape, unless because of the earlier result
    have hrest : (∀ t j, req.previousResults = some t → env.parseJson t = some j →
          ¬ BadPrevious env.parseJson t → Usable env r j) →
        ∀ e, ¬ Escapes env req.previousResults ps (datasetOf l none) i label e := by
      intro hprev e he
      cases he with
      | run c' a' _ h1 h2 h3 h4 h5 =>
        obtain ⟨rfl, rfl⟩ := hun h1 h2
        rw [hrun] at h3
        cases h3
      | graph c' a' r' x _ h1 h2 h3 h4 h5 =>
        obtain ⟨rfl, rfl⟩ := hun h1 h2
        rw [hrun] at h3
        cases h3
        exact g2 x e h4 h5
      | animation c' cfg r' r'' rs x _ h1 h2 h3 h4 h5 h6 h7 =>
        obtain ⟨rfl, rfl⟩ := hun h1 h2
        exact a2 cfg rs rfl h4 r'' h5 x e h6 h7
      | previous c' a' r' t j _ h1 h2 h3 h4 h5 h6 h7 h8 =>
        obtain ⟨rfl, rfl⟩ := hun h1 h2
        rw [hrun] at h3
        cases h3
        exact h7 (hprev t j h4 h5 h6)
    have hfail : ∀ s, Fails env req.previousResults ps (datasetOf l none) i label s →
        ∃ t, req.previousResults = some t ∧ BadPrevious env.parseJson t := by
      intro s hfail
      cases hfail with
      | unknown h => exact absurd hc (h c)
      | empty c' a' h1 h2 h3 =>
        obtain ⟨rfl, rfl⟩ := hun h1 h2
        rw [hrun] at h3; cases h3
      | diverged c' a' h1 h2 h3 =>
        obtain ⟨rfl, rfl⟩ := hun h1 h2
        rw [hrun] at h3; cases h3
      | previous c' a' r' t h1 h2 h3 h4 h5 => exact ⟨t, h4, h5⟩
    cases hpr : req.previousResults with
    | none =>
      rw [hpr] at hrest hfail
      refine .inr (.inl ⟨_, hmsg (.ok (.ok _)) (present_ok hf g1 a1 (D := none) (by rw [hpr]; rfl)), ?_,
        hrest fun t j h => by cases h⟩)
      · intro s hs
        obtain ⟨t, h, -⟩ := hfail s hs
        cases h
    | some t =>
      rw [hpr] at hrest hfail
      by_cases hb : BadPrevious env.parseJson t
      · refine .inl ⟨400, hmsg (.ok (.error 400)) (present_fails hf g1 a1 ?_), .previous c a r t hc ha hrun rfl hb, hrest ?_⟩
        · rw [hpr]; exact webDiff_bad env hb r
        · intro t' j h1 h2 h3
          cases h1
          exact absurd hb h3
      · obtain ⟨j, hj⟩ : ∃ j, env.parseJson t = some j := by
          cases h : env.parseJson t with
          | some j => exact ⟨j, rfl⟩
          | none => exact absurd (.inl h) hb
        rcases webDiff_cases henv (C47_runs a _ _ _ r hrun) hj hb with ⟨D, w1, w2⟩ | ⟨e, w1, w2, w3⟩
        · refine .inr (.inl ⟨_, hmsg (.ok (.ok _)) (present_ok hf g1 a1 (D := some D) (by rw [hpr]; exact w1)), ?_, hrest ?_⟩)
          · intro s hs
            obtain ⟨t', h, h'⟩ := hfail s hs
            cases h
            exact hb h'
          · intro t' j' h1 h2 h3
            cases h1
            rw [hj] at h2
            cases h2
            exact w2
        · refine .inr (.inr ⟨e, ?_, .previous c a r t j e hc ha hrun rfl hj hb w3 w2⟩)
          rw [hmsg (.error e) (present_diff hf g1 a1 (by rw [hpr]; exact w1))]

/-- The loop over the algorithms. -/
theorem loop_cases {env : Env X R} (henv : WebEnvOk env) {req : Request} {ps : Dict Text (PVal (FP R))}
    (hps : ParamsMean env.digit env.parseFloat req.parameters ps)
    {l : List (Nat × Nat × X)} (hd : Dataset.mk' l false none = .ok (datasetOf (α := FP R) l none))
    (labels : List Text) (n : Nat) (data : Dict Text (WebOut X (FP R))) (ms : List Text) :
    (∀ e, webLoop env req ps (datasetOf l none) n labels data ms = .error e → ∃ i label, labels[i]? = some label ∧
      Escapes env req.previousResults ps (datasetOf l none) (n + i) label e ∧
      ∀ (j : Nat) label', j < i → labels[j]? = some label' →
        (∀ s, ¬ Fails env req.previousResults ps (datasetOf l none) (n + j) label' s) ∧
        ∀ e', ¬ Escapes env req.previousResults ps (datasetOf l none) (n + j) label' e') ∧
    ((∃ i label e, labels[i]? = some label ∧
      Escapes env req.previousResults ps (datasetOf l none) (n + i) label e ∧
      ∀ (j : Nat) label', j < i → labels[j]? = some label' →
        (∀ s, ¬ Fails env req.previousResults ps (datasetOf l none) (n + j) label' s) ∧
        ∀ e', ¬ Escapes env req.previousResults ps (datasetOf l none) (n + j) label' e') →
      ∃ e, webLoop env req ps (datasetOf l none) n labels data ms = .error e) := by
  induction labels generalizing n data ms with
  | nil =>
    refine ⟨(by intro e h; cases h), ?_⟩
    rintro ⟨i, label, e, h, -⟩
    simp at h
  | cons label labels ih =>
    rw [webLoop]
    rcases one_cases henv hps hd n label with ⟨s, h1, h2, h3⟩ | ⟨out, h1, h2, h3⟩ | ⟨e, h1, h2⟩
    · rw [h1]
      refine ⟨(by intro e h; cases h), ?_⟩
      rintro ⟨i, label', e, hi, he, hfirst⟩
      exfalso
      cases i with
      | zero =>
        have : label = label' := by simpa using hi
        subst this
        exact h3 e he
      | succ i => exact (hfirst 0 label (by omega) rfl).1 s h2
    · rw [h1]
      obtain ⟨out, ms'⟩ := out
      obtain ⟨ih1, ih2⟩ := ih (n + 1) (data.set label out) (ms ++ ms')
      constructor
      · intro e h
        obtain ⟨i, label', g1, g2, g3⟩ := ih1 e h
        refine ⟨i + 1, label', by simpa using g1, by rwa [show n + (i + 1) = n + 1 + i by omega], ?_⟩
        intro j lab hj hl
        cases j with
        | zero =>
          have : label = lab := by simpa using hl
          subst this
          exact ⟨h2, h3⟩
        | succ j =>
          rw [show n + (j + 1) = n + 1 + j by omega]
          exact g3 j lab (by omega) (by simpa using hl)
      · rintro ⟨i, label', e, g1, g2, g3⟩
        cases i with
        | zero =>
          have : label = label' := by simpa using g1
          subst this
          exact absurd g2 (h3 e)
        | succ i =>
          refine ih2 ⟨i, label', e, by simpa using g1, by rwa [show n + 1 + i = n + (i + 1) by omega], ?_⟩
          intro j lab hj hl
          rw [show n + 1 + j = n + (j + 1) by omega]
          exact g3 (j + 1) lab (by omega) (by simpa using hl)
    · rw [h1]
      refine ⟨?_, fun _ => ⟨e, rfl⟩⟩
      intro e' h
      cases h
      exact ⟨0, label, rfl, h2, fun j _ hj => by omega⟩

/-- **C77.** A request escapes with an exception exactly if its inputs are proper and, at the
first of its algorithms that does not produce an output or an error status, the algorithm
raises something else than `ConvergenceError` or `EmptyDatasetError`, or a score of the
result or a partial result has no colour, or "previous_results" is complete JSON that
cannot be compared with the result.  For every rounding; the exception is that of the run, of
a score without colour, or `TypeError` or `AttributeError` of the comparison. -/
theorem C77_escapes {env : Env X R} (henv : WebEnvOk env) (req : Request) :
    (∀ e, webRun env req = .error e → Unanswered env req e) ∧
    ((∃ e, Unanswered env req e) → ∃ e, webRun env req = .error e) := by
  have hpar := C52_parameters env.digit env.parseFloat henv.newline req.parameters
  have hmd : ∀ {l : List (Nat × Nat × X)} {d : Dataset Nat Nat X (FP R)}, Dataset.mk' l false none = .ok d →
      d = datasetOf l none := fun h => ((mk'_ok_iff _ (fp_one_ne_zero R) _ _ _).1 h).1
  constructor
  · intro e he
    obtain ⟨hbad, -, -⟩ := C52_bad_request env henv.newline req
    have halg : req.algorithm ≠ [] := by
      intro h; rw [hbad (.inl h)] at he; cases he
    obtain ⟨csv, hcsv⟩ : ∃ csv, req.csv = some csv := by
      cases h : req.csv with
      | some csv => exact ⟨csv, rfl⟩
      | none => rw [hbad (.inr (.inl h))] at he; cases he
    have hne : csv ≠ [] := by
      rintro rfl; rw [hbad (.inr (.inr hcsv))] at he; cases he
    have hin : ∀ e', webInputs env req csv = .error e' → False := by
      intro e' h
      have hv : e' = .valueError := by
        unfold webInputs at h
        simp only [bind, Except.bind, pure, Except.pure] at h
        split at h
        · rename_i e'' hp
          cases h
          exact hpar.2.2 _ hp
        · split at h
          · rename_i e'' hm
            cases h
            cases hcm : csvToMasked env.parseValue (csv.filter fun c => c ≠ '_') with
            | ok g =>
              obtain ⟨md, h1, -⟩ := (C12_from_csv (α := FP R) (fp_one_ne_zero R) env.parseValue _).1 g hcm
              rw [h1] at hm; cases hm
            | error e3 =>
              have := (C12_from_csv (α := FP R) (fp_one_ne_zero R) env.parseValue _).2 e3 hcm
              rw [this] at hm; cases hm; rfl
          · cases h
      subst hv
      obtain ⟨alg, csv', par, prev⟩ := req
      cases alg with
      | nil => exact halg rfl
      | cons a as =>
        cases hcsv
        cases csv with
        | nil => exact hne rfl
        | cons c cs =>
          simp only [webRun, h] at he
          cases he
    cases hp : getParamDict env.digit env.parseFloat req.parameters with
    | error e' =>
      exfalso
      refine hin e' ?_
      unfold webInputs; rw [hp]; rfl
    | ok ps =>
      cases hg : csvToMasked env.parseValue (csv.filter fun c => c ≠ '_') with
      | error e' =>
        exfalso
        refine hin .valueError ?_
        have := (C12_from_csv (α := FP R) (fp_one_ne_zero R) env.parseValue _).2 e' hg
        unfold webInputs
        simp only [hp, bind, Except.bind, this]
      | ok g =>
        obtain ⟨md, hmd', hin'⟩ := webInputs_ok hp hg
        rw [webRun_eq halg hcsv hne hin'] at he
        have hdd := hmd hmd'
        rw [hdd] at he hmd'
        obtain ⟨i, label, h1, h2, h3⟩ := (loop_cases henv (hpar.1 ps hp) hmd' req.algorithm 0 [] []).1 e he
        simp only [Nat.zero_add] at h2 h3
        exact ⟨csv, ps, g, _, i, label, hcsv, hne, hp, hg, hmd', h1, h2, h3⟩
  · rintro ⟨e, csv, ps, g, d, i, label, hcsv, hne, hp, hg, hd, h1, h2, h3⟩
    obtain ⟨md, hmd', hin'⟩ := webInputs_ok hp hg
    have halg : req.algorithm ≠ [] := by
      intro h; rw [h] at h1; simp at h1
    rw [webRun_eq halg hcsv hne hin']
    have e1 := hmd hmd'
    have e2 := hmd hd
    rw [e1] at hmd' ⊢
    rw [e2] at h2 h3
    refine (loop_cases henv (hpar.1 ps hp) hmd' req.algorithm 0 [] []).2 ⟨i, label, e, h1, ?_, ?_⟩
    · simpa using h2
    · simpa using h3

end
end TD
