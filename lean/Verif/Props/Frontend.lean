import Verif.Spec.Frontend
import Verif.Lemmas.Text
import Verif.Lemmas.Matrix
import Verif.Props.Matrix
import Verif.Lemmas.Toy
/-!
# C73: editing the matrix in the browser, C75: animations in the browser
-/

namespace TD
open Spec

section
variable {X : Type}

theorem holds_iff {g : Grid X} {i j : Nat} {v : X} :
    Holds g i j v ↔ (g[i]?.bind fun row => row[j]?) = some (some v) := by
  unfold Holds
  cases g[i]? <;> simp

/-- **C73.** The effect of every action on the entries and the shape of a matrix. -/
theorem C73_edits {m n : Nat} {g : Grid X} (h : Dims m n g) :
    (0 < m → ∃ g', jsAddSource g = .ok g' ∧ Dims (m + 1) n g' ∧
      ∀ i j v, Holds g' i j v ↔ Holds g i j v) ∧
    (Dims m (n + 1) (jsAddVariable g) ∧ ∀ i j v, Holds (jsAddVariable g) i j v ↔ Holds g i j v) ∧
    (∀ k < m, Dims (m - 1) n (jsDeleteSource g k) ∧
      ∀ i j v, Holds (jsDeleteSource g k) i j v ↔ Holds g (undeleted k i) j v) ∧
    (∀ k < n, Dims m (n - 1) (jsDeleteVariable g k) ∧
      ∀ i j v, Holds (jsDeleteVariable g k) i j v ↔ Holds g i (undeleted k j) v) ∧
    (Dims m n (jsClear g) ∧ ∀ i j v, ¬ Holds (jsClear g) i j v) ∧
    (∀ a < m, ∀ b < n, ∀ x, Dims m n (jsSetCell g a b x) ∧
      ∀ i j v, Holds (jsSetCell g a b x) i j v ↔
        if i = a ∧ j = b then x = some v else Holds g i j v) := by
  obtain ⟨hm, hn⟩ := h
  refine ⟨?_, ⟨⟨by simp [jsAddVariable, hm], ?_⟩, ?_⟩, ?_, ?_, ⟨⟨by simp [jsClear, hm], ?_⟩, ?_⟩, ?_⟩
  · intro hpos
    cases g with
    | nil => simp at hm; omega
    | cons row g =>
      refine ⟨_, rfl, ⟨by simp at hm; simp [hm], ?_⟩, ?_⟩
      · intro r hr
        rcases List.mem_append.1 hr with hr | hr
        · exact hn r hr
        · simp only [List.mem_singleton] at hr
          subst hr
          simpa using hn row (by simp)
      · intro i j v
        rw [holds_iff, holds_iff]
        by_cases hi : i < (row :: g).length
        · rw [List.getElem?_append_left hi]
        · rw [List.getElem?_append_right (by omega), List.getElem?_eq_none (l := row :: g) (by omega)]
          cases hk : i - (row :: g).length with
          | zero =>
            simp only [List.getElem?_cons_zero, Option.bind_some, List.getElem?_map]
            cases row[j]? <;> simp
          | succ k => simp
  · intro r hr
    simp only [jsAddVariable, List.mem_map] at hr
    obtain ⟨r0, h0, rfl⟩ := hr
    simp [hn r0 h0]
  · intro i j v
    rw [holds_iff, holds_iff]
    simp only [jsAddVariable, List.getElem?_map]
    cases hg : g[i]? with
    | none => simp
    | some row =>
      simp only [Option.map_some, Option.bind_some]
      by_cases hj : j < row.length
      · rw [List.getElem?_append_left hj]
      · rw [List.getElem?_append_right (by omega), List.getElem?_eq_none (l := row) (by omega)]
        cases hk : j - row.length <;> simp
  · intro k hk
    refine ⟨⟨?_, ?_⟩, ?_⟩
    · rw [jsDeleteSource, List.length_eraseIdx_of_lt (by omega), hm]
    · intro r hr
      exact hn r (List.mem_of_mem_eraseIdx hr)
    · intro i j v
      rw [holds_iff, holds_iff, jsDeleteSource, List.getElem?_eraseIdx, undeleted]
      split <;> rfl
  · intro k hk
    refine ⟨⟨by simp [jsDeleteVariable, hm], ?_⟩, ?_⟩
    · intro r hr
      simp only [jsDeleteVariable, List.mem_map] at hr
      obtain ⟨r0, h0, rfl⟩ := hr
      have := hn r0 h0
      rw [List.length_eraseIdx_of_lt (by omega), this]
    · intro i j v
      rw [holds_iff, holds_iff]
      simp only [jsDeleteVariable, List.getElem?_map]
      cases hg : g[i]? with
      | none => simp
      | some row =>
        simp only [Option.map_some, Option.bind_some, List.getElem?_eraseIdx, undeleted]
        split <;> rfl
  · intro r hr
    simp only [jsClear, List.mem_map] at hr
    obtain ⟨r0, h0, rfl⟩ := hr
    simp [hn r0 h0]
  · intro i j v
    rw [holds_iff]
    simp only [jsClear, List.getElem?_map]
    cases hg : g[i]? with
    | none => simp
    | some row =>
      simp only [Option.map_some, Option.bind_some, List.getElem?_map]
      cases row[j]? <;> simp
  · intro a ha b hb x
    refine ⟨⟨by simp [jsSetCell, hm], ?_⟩, ?_⟩
    · intro r hr
      obtain ⟨i, hi, e⟩ := List.getElem_of_mem hr
      have hi' : i < g.length := by simpa [jsSetCell] using hi
      have h0 := hn g[i] (List.getElem_mem hi')
      simp only [jsSetCell, List.getElem_modify] at e
      subst e
      split <;> simp [h0]
    · intro i j v
      rw [holds_iff, holds_iff]
      simp only [jsSetCell, List.getElem?_modify]
      by_cases hi : i = a
      · subst hi
        have hg : g[i]? = some (g[i]'(by omega)) := List.getElem?_eq_getElem (by omega)
        rw [hg]
        simp only [if_true, Option.map_eq_map, Option.map_some, Option.bind_some, true_and, List.getElem?_set]
        have hl := hn (g[i]'(by omega)) (List.getElem_mem _)
        by_cases hj : j = b
        · subst hj
          rw [if_pos rfl, if_pos rfl, if_pos (by omega)]
          simp
        · rw [if_neg (Ne.symm hj), if_neg hj]
      · rw [if_neg (fun h => hi h.1)]
        cases hg : g[i]? with
        | none => simp
        | some row => simp [Ne.symm hi]

theorem loadRows_spec (parseFloat : Text → Option X) (isZero : X → Bool) (n : Nat) (lines : List Text) :
    (jsLoadRows parseFloat isZero n lines = .error .rowLength ↔
      ∃ line ∈ lines, (split ',' line).length ≠ n) ∧
    (∀ e, jsLoadRows parseFloat isZero n lines = .error e → e = .rowLength) ∧
    (∀ g, jsLoadRows parseFloat isZero n lines = .ok g →
      g = lines.map fun line => (split ',' line).map (jsParseValue parseFloat isZero)) := by
  induction lines with
  | nil => exact ⟨by simp [jsLoadRows], nofun, by rintro g h; cases h; rfl⟩
  | cons line lines ih =>
    obtain ⟨i1, i2, i3⟩ := ih
    unfold jsLoadRows
    by_cases h : (split ',' line).length = n
    · simp only [h, ne_eq, not_true_eq_false, if_false, bind, Except.bind, pure, Except.pure]
      cases hr : jsLoadRows parseFloat isZero n lines with
      | error e =>
        obtain rfl := i2 e hr
        refine ⟨?_, by rintro e h; cases h; rfl, nofun⟩
        have := i1.1 hr
        simp only [List.mem_cons, exists_eq_or_imp, true_iff]
        exact .inr this
      | ok g =>
        refine ⟨?_, nofun, by rintro g' h'; cases h'; rw [i3 g hr]; rfl⟩
        simp only [reduceCtorEq, List.mem_cons, exists_eq_or_imp, h, not_true_eq_false, false_or, false_iff]
        intro hx
        rw [i1.2 hx] at hr
        cases hr
    · simp only [h, ne_eq, not_false_eq_true, if_true, Except.error.injEq]
      refine ⟨?_, by rintro e rfl; rfl, nofun⟩
      simp [h]

/-- **C73.** Loading CSV text: an error iff the lines have different numbers of fields;
otherwise every field is read, except that zeros are lost. -/
theorem C73_load (parseFloat : Text → Option X) (isZero : X → Bool) (csv : Text)
    (lines : List Text) (hl : Separated '\n' csv lines) (rows : List (List Text))
    (hr : List.Forall₂ (Separated ',') lines rows) :
    (jsLoadCsv parseFloat isZero csv = .error .rowLength ↔
      ∃ r0 ∈ rows.head?, ∃ r ∈ rows, r.length ≠ r0.length) ∧
    (∀ e, jsLoadCsv parseFloat isZero csv = .error e → e = .rowLength) ∧
    (∀ g, jsLoadCsv parseFloat isZero csv = .ok g →
      List.Forall₂ (List.Forall₂ (EntryRead parseFloat isZero)) rows g) := by
  obtain rfl := split_of_separated hl
  have hrows : ∀ ls rows, List.Forall₂ (Separated ',') ls rows → rows = ls.map (split ',') := by
    intro ls rows h
    induction h with
    | nil => rfl
    | cons h _ ih => rw [List.map_cons, ← ih, split_of_separated h]
  obtain rfl := hrows _ _ hr
  have hread : ∀ v, EntryRead parseFloat isZero v (jsParseValue parseFloat isZero v) := by
    intro v
    unfold EntryRead jsParseValue
    cases hp : parseFloat v with
    | none => simp
    | some x => cases hz : isZero x <;> simp [hz]
  unfold jsLoadCsv
  cases hs : split '\n' csv with
  | nil => exact absurd hs (split_ne_nil _ _)
  | cons line ls =>
    dsimp only
    obtain ⟨i1, i2, i3⟩ := loadRows_spec parseFloat isZero (split ',' line).length (line :: ls)
    refine ⟨?_, i2, ?_⟩
    · rw [i1]; simp
    · intro g hg
      rw [i3 g hg, List.forall₂_map_left_iff, List.forall₂_map_right_iff]
      refine List.forall₂_same.2 fun l _ => ?_
      rw [List.forall₂_map_right_iff]
      exact List.forall₂_same.2 fun v _ => hread v

theorem load_dims {parseFloat : Text → Option X} {isZero : X → Bool} {csv : Text} {g : Grid X}
    (h : jsLoadCsv parseFloat isZero csv = .ok g) : ∃ m n, 0 < m ∧ 0 < n ∧ Dims m n g := by
  unfold jsLoadCsv at h
  cases hs : split '\n' csv with
  | nil => exact absurd hs (split_ne_nil _ _)
  | cons line ls =>
    rw [hs] at h
    dsimp only at h
    obtain ⟨i1, i2, i3⟩ := loadRows_spec parseFloat isZero (split ',' line).length (line :: ls)
    have hg := i3 g h
    have hw : ∀ l ∈ line :: ls, (split ',' l).length = (split ',' line).length := by
      intro l hl
      by_contra hc
      rw [i1.2 ⟨l, hl, hc⟩] at h
      cases h
    refine ⟨(line :: ls).length, (split ',' line).length, by simp,
      List.length_pos_iff.2 (split_ne_nil _ _), by rw [hg, List.length_map], ?_⟩
    intro r hr
    rw [hg, List.mem_map] at hr
    obtain ⟨l, hl, rfl⟩ := hr
    rw [List.length_map, hw l hl]

/-- **C73.** Whatever the user does, the matrix stays rectangular with at least one row and
one column, and no action fails. -/
theorem C73_rectangular {presets : List (Grid X)} {parseFloat : Text → Option X} {isZero : X → Bool}
    (hp : ∀ p ∈ presets, ∃ m n, 0 < m ∧ 0 < n ∧ Dims m n p) {g g' : Grid X} {m n : Nat} (hm : 0 < m)
    (hn : 0 < n) (hg : Dims m n g) (h : Edited presets parseFloat isZero g g') :
    (∃ m n, 0 < m ∧ 0 < n ∧ Dims m n g') ∧
    ∀ e : Edit X, e.shown presets g' → ∃ g'', e.apply parseFloat isZero g' = .ok g'' := by
  have key : ∀ {g1 : Grid X}, (∃ m n, 0 < m ∧ 0 < n ∧ Dims m n g1) → ∀ e : Edit X, e.shown presets g1 →
      ∃ g2, e.apply parseFloat isZero g1 = .ok g2 ∧ ∃ m n, 0 < m ∧ 0 < n ∧ Dims m n g2 := by
    rintro g1 ⟨m, n, h1, h2, hd⟩ e hs
    obtain ⟨e1, ⟨e2, -⟩, e3, e4, ⟨e5, -⟩, e6⟩ := C73_edits hd
    cases e with
    | addSource =>
      obtain ⟨g2, a, b, -⟩ := e1 h1
      exact ⟨g2, a, m + 1, n, by omega, h2, b⟩
    | addVariable => exact ⟨_, rfl, m, n + 1, h1, by omega, e2⟩
    | deleteSource i =>
      obtain ⟨a, b⟩ := hs
      rw [hd.1] at a b
      exact ⟨_, rfl, m - 1, n, by omega, h2, (e3 i a).1⟩
    | deleteVariable j =>
      obtain ⟨row, hr, a, b⟩ := hs
      have := hd.2 row (List.mem_of_mem_head? hr)
      rw [this] at a b
      exact ⟨_, rfl, m, n - 1, h1, by omega, (e4 j a).1⟩
    | clear => exact ⟨_, rfl, m, n, h1, h2, e5⟩
    | setCell i j v =>
      obtain ⟨row, hr, a⟩ := hs
      have hi : i < g1.length := by
        by_contra hc
        rw [List.getElem?_eq_none (by omega)] at hr
        cases hr
      have := hd.2 row (List.mem_of_getElem? hr)
      rw [this] at a
      rw [hd.1] at hi
      exact ⟨_, rfl, m, n, h1, h2, (e6 i hi j a v).1⟩
    | loadCsv csv =>
      unfold Edit.apply
      cases hc : jsLoadCsv parseFloat isZero csv with
      | error e => exact ⟨g1, by dsimp only; rw [hc], m, n, h1, h2, hd⟩
      | ok g2 => exact ⟨g2, by dsimp only; rw [hc], load_dims hc⟩
    | loadPreset p => exact ⟨_, rfl, hp p hs⟩
  have hd : ∃ m n, 0 < m ∧ 0 < n ∧ Dims m n g' := by
    induction h with
    | start => exact ⟨m, n, hm, hn, hg⟩
    | step g1 g2 e _ hs he ih =>
      obtain ⟨g3, h3, h4⟩ := key ih e hs
      rw [he] at h3
      cases h3
      exact h4
  exact ⟨hd, fun e hs => (key hd e hs).imp fun _ h => h.1⟩

theorem typed_trans {parseFloat : Text → Option X} {isZero : X → Bool} {g g1 g2 : Grid X} (h : Typed parseFloat isZero g g1)
    (h' : Typed parseFloat isZero g1 g2) : Typed parseFloat isZero g g2 := by
  induction h' with
  | start => exact h
  | step a b e _ hand hs he ih => exact .step a b e ih hand hs he

theorem grid_ext {m n : Nat} {g h : Grid X} (hg : Dims m n g) (hh : Dims m n h) (he : ∀ i j v, Holds g i j v ↔ Holds h i j v) :
    g = h := by
  refine List.ext_getElem (hg.1.trans hh.1.symm) fun i h1 h2 => ?_
  have l1 : (g[i]).length = n := hg.2 _ (List.getElem_mem h1)
  have l2 : (h[i]).length = n := hh.2 _ (List.getElem_mem h2)
  refine List.ext_getElem (l1.trans l2.symm) fun j j1 j2 => ?_
  have key : ∀ (k : Grid X) (hi : i < k.length) (hj : j < (k[i]).length) (v : X), Holds k i j v ↔ (k[i])[j] = some v := by
    intro k hi hj v
    unfold Holds
    rw [List.getElem?_eq_getElem hi]
    constructor
    · rintro ⟨row, e, h⟩
      cases e
      rw [List.getElem?_eq_getElem hj] at h
      exact Option.some.inj h
    · intro h
      exact ⟨_, rfl, by rw [List.getElem?_eq_getElem hj, h]⟩
  have : ∀ v, (g[i])[j] = some v ↔ (h[i])[j] = some v := fun v => by
    rw [← key g h1 j1, ← key h h2 j2, he]
  exact Option.ext this

/-- **C73.** Every matrix can be entered by hand, from every other one: with the buttons for adding and deleting
sources and variables and the fields of the entries, and no action fails on the way. -/
theorem C73_reachable (parseFloat : Text → Option X) (isZero : X → Bool) {g h : Grid X} {m n m' n' : Nat} (hm : 0 < m)
    (hn : 0 < n) (hg : Dims m n g) (hm' : 0 < m') (hn' : 0 < n') (hh : Dims m' n' h) : Typed parseFloat isZero g h := by
  have addRows : ∀ (k : Nat) {m : Nat} {g : Grid X}, 0 < m → Dims m n g →
      ∃ g', Typed parseFloat isZero g g' ∧ Dims (m + k) n g' := by
    intro k
    induction k with
    | zero => intro m g _ hg; exact ⟨g, .start, hg⟩
    | succ k ih =>
      intro m g hm hg
      obtain ⟨g1, h1, h2⟩ := ih hm hg
      obtain ⟨g2, e, h3, -⟩ := (C73_edits h2).1 (by omega)
      exact ⟨g2, .step g1 g2 .addSource h1 .addSource trivial e, h3⟩
  have delRows : ∀ (k : Nat) {m : Nat} {g : Grid X}, k < m → Dims m n g →
      ∃ g', Typed parseFloat isZero g g' ∧ Dims (m - k) n g' := by
    intro k
    induction k with
    | zero => intro m g _ hg; exact ⟨g, .start, hg⟩
    | succ k ih =>
      intro m g hm hg
      obtain ⟨g1, h1, h2⟩ := ih (by omega) hg
      have h3 := ((C73_edits h2).2.2.1 0 (by omega)).1
      refine ⟨_, .step g1 _ (.deleteSource 0) h1 (.deleteSource 0) ?_ rfl, (by rwa [Nat.sub_sub] at h3)⟩
      show 0 < g1.length ∧ 1 < g1.length
      rw [h2.1]; omega
  have addCols : ∀ (k : Nat) {m n : Nat} {g : Grid X}, 0 < m → Dims m n g →
      ∃ g', Typed parseFloat isZero g g' ∧ Dims m (n + k) g' := by
    intro k
    induction k with
    | zero => intro m n g _ hg; exact ⟨g, .start, hg⟩
    | succ k ih =>
      intro m n g hm hg
      obtain ⟨g1, h1, h2⟩ := ih hm hg
      exact ⟨_, .step g1 _ .addVariable h1 .addVariable trivial rfl, (C73_edits h2).2.1.1⟩
  have delCols : ∀ (k : Nat) {m n : Nat} {g : Grid X}, 0 < m → k < n → Dims m n g →
      ∃ g', Typed parseFloat isZero g g' ∧ Dims m (n - k) g' := by
    intro k
    induction k with
    | zero => intro m n g _ _ hg; exact ⟨g, .start, hg⟩
    | succ k ih =>
      intro m n g hm hk hg
      obtain ⟨g1, h1, h2⟩ := ih hm (by omega) hg
      have h3 := ((C73_edits h2).2.2.2.1 0 (by omega)).1
      refine ⟨_, .step g1 _ (.deleteVariable 0) h1 (.deleteVariable 0) ?_ rfl, (by rwa [Nat.sub_sub] at h3)⟩
      cases g1 with
      | nil => have := h2.1; simp at this; omega
      | cons row g1 =>
        have := h2.2 row (by simp)
        exact ⟨row, rfl, by omega, by omega⟩
  obtain ⟨g1, t1, d1⟩ : ∃ g', Typed parseFloat isZero g g' ∧ Dims m' n g' := by
    rcases Nat.le_total m m' with hle | hle
    · obtain ⟨g', h1, h2⟩ := addRows (m' - m) hm hg
      exact ⟨g', h1, by rwa [show m + (m' - m) = m' by omega] at h2⟩
    · obtain ⟨g', h1, h2⟩ := delRows (m - m') (by omega) hg
      exact ⟨g', h1, by rwa [show m - (m - m') = m' by omega] at h2⟩
  obtain ⟨g2, t2, d2⟩ : ∃ g', Typed parseFloat isZero g1 g' ∧ Dims m' n' g' := by
    rcases Nat.le_total n n' with hle | hle
    · obtain ⟨g', h1, h2⟩ := addCols (n' - n) hm' d1
      exact ⟨g', h1, by rwa [show n + (n' - n) = n' by omega] at h2⟩
    · obtain ⟨g', h1, h2⟩ := delCols (n - n') hm' (by omega) d1
      exact ⟨g', h1, by rwa [show n - (n - n') = n' by omega] at h2⟩
  have fill : ∀ L : List (Nat × Nat), (∀ p ∈ L, p.1 < m' ∧ p.2 < n') → ∃ g', Typed parseFloat isZero g2 g' ∧ Dims m' n' g' ∧
      ∀ p ∈ L, ∀ v, Holds g' p.1 p.2 v ↔ Holds h p.1 p.2 v := by
    intro L
    induction L with
    | nil => intro _; exact ⟨g2, .start, d2, nofun⟩
    | cons p L ih =>
      intro hL
      obtain ⟨g', h1, h2, h3⟩ := ih fun q hq => hL q (List.mem_cons_of_mem _ hq)
      obtain ⟨hi, hj⟩ := hL p List.mem_cons_self
      have hih : p.1 < h.length := by rw [hh.1]; exact hi
      have hjh : p.2 < (h[p.1]).length := by rw [hh.2 _ (List.getElem_mem hih)]; exact hj
      have hcell : ∀ v, (h[p.1])[p.2] = some v ↔ Holds h p.1 p.2 v := by
        intro v
        unfold Holds
        rw [List.getElem?_eq_getElem hih]
        constructor
        · intro e; exact ⟨_, rfl, by rw [List.getElem?_eq_getElem hjh, e]⟩
        · rintro ⟨row, e, e'⟩
          cases e
          rw [List.getElem?_eq_getElem hjh] at e'
          exact Option.some.inj e'
      obtain ⟨h4, h5⟩ := (C73_edits h2).2.2.2.2.2 p.1 hi p.2 hj (h[p.1])[p.2]
      have hig : p.1 < g'.length := by rw [h2.1]; exact hi
      refine ⟨_, .step g' _ (.setCell p.1 p.2 (h[p.1])[p.2]) h1 (.setCell ..)
        ⟨g'[p.1], List.getElem?_eq_getElem hig, by rw [h2.2 _ (List.getElem_mem hig)]; exact hj⟩ rfl, h4, ?_⟩
      intro q hq v
      rw [h5]
      by_cases hqp : q.1 = p.1 ∧ q.2 = p.2
      · rw [if_pos hqp, hcell, hqp.1, hqp.2]
      · rw [if_neg hqp]
        rcases List.mem_cons.1 hq with rfl | hq
        · exact absurd ⟨rfl, rfl⟩ hqp
        · exact h3 q hq v
  obtain ⟨g3, t3, d3, h3⟩ := fill ((List.range m').flatMap fun i => (List.range n').map fun j => (i, j)) (by
    intro p hp
    simp only [List.mem_flatMap, List.mem_map, List.mem_range] at hp
    obtain ⟨i, hi, j, hj, rfl⟩ := hp
    exact ⟨hi, hj⟩)
  have out : ∀ {k : Grid X}, Dims m' n' k → ∀ i j v, Holds k i j v → i < m' ∧ j < n' := by
    rintro k hk i j v ⟨row, e1, e2⟩
    obtain ⟨h1, -⟩ := List.getElem?_eq_some_iff.1 e1
    obtain ⟨h2, -⟩ := List.getElem?_eq_some_iff.1 e2
    rw [hk.2 row (List.mem_of_getElem? e1)] at h2
    rw [hk.1] at h1
    exact ⟨h1, h2⟩
  have : g3 = h := grid_ext d3 hh fun i j v => by
    by_cases hij : i < m' ∧ j < n'
    · refine h3 (i, j) ?_ v
      simp only [List.mem_flatMap, List.mem_map, List.mem_range]
      exact ⟨i, hij.1, j, hij.2, rfl⟩
    · exact ⟨fun h => absurd (out d3 i j v h) hij, fun h => absurd (out hh i j v h) hij⟩
  exact typed_trans (typed_trans t1 t2) (this ▸ t3)

/-- From one empty entry to a matrix with a row that is empty, and back. -/
example : Typed (X := Nat) (fun _ => none) (fun _ => false) [[none]] [[some 1, none, some 2], [none, none, none]] ∧
    Typed (X := Nat) (fun _ => none) (fun _ => false) [[some 1, none, some 2], [none, none, none]] [[none]] := by
  have d1 : Dims 1 1 ([[none]] : Grid Nat) := ⟨rfl, by unfold Rect; decide⟩
  have d2 : Dims 2 3 ([[some 1, none, some 2], [none, none, none]] : Grid Nat) := ⟨rfl, by unfold Rect; decide⟩
  exact ⟨C73_reachable _ _ (by decide) (by decide) d1 (by decide) (by decide) d2,
    C73_reachable _ _ (by decide) (by decide) d2 (by decide) (by decide) d1⟩

/-! ### The text sent to the server -/

theorem asCsv_eq (str : X → Text) {g : Grid X} (hg : g ≠ []) :
    jsAsCsv str g = gridToCsv str g ++ ['\n'] := by
  induction g with
  | nil => exact absurd rfl hg
  | cons row g ih =>
    cases g with
    | nil =>
      rw [jsAsCsv, gridToCsv, List.flatMap_cons, List.flatMap_nil, List.append_nil]
      rfl
    | cons row' g =>
      have := ih (by simp)
      have e : ∀ g : Grid X, jsAsCsv str (row :: g) =
          joinWith ',' (row.map (cellText str)) ++ ['\n'] ++ jsAsCsv str g := fun _ => rfl
      have e' : gridToCsv str (row :: row' :: g) =
          joinWith ',' (row.map (cellText str)) ++ '\n' :: gridToCsv str (row' :: g) := rfl
      rw [e, this, e']
      simp

theorem sent_eq (parse : Text → Parsed X) (a b t : Text) (ha : ∀ c ∈ a, isBlank c = true)
    (hb : ∀ c ∈ b, isBlank c = true) : csvToMasked parse (a ++ t ++ b) = csvToMasked parse t := by
  obtain ⟨fields, hf, -⟩ := C12_table_unique t
  obtain ⟨h1, h2⟩ := C12_whitespace parse t (a ++ t ++ b) fields hf
  exact h1 (h2 a b ha hb)

/-- **C73.** The server reads back the matrix from the text it is sent, if the matrix has at
least two columns, or one column that begins and ends with entries, or is a single empty
cell. -/
theorem C73_sent (str : X → Text) (parse : Text → Parsed X) (hrt : RoundTrips str parse)
    {m n : Nat} {g : Grid X} (hm : 0 < m) (hg : Dims m n g)
    (hn : 2 ≤ n ∨ (n = 1 ∧ g.head? ≠ some [none] ∧ g.getLast? ≠ some [none]) ∨ g = [[none]]) :
    csvToMasked parse (jsAsCsv str g) = .ok g := by
  have hne : g ≠ [] := by
    rintro rfl
    have := hg.1
    simp at this
    omega
  rw [asCsv_eq str hne]
  have := sent_eq parse [] ['\n'] (gridToCsv str g) (by simp) (by decide)
  rw [List.nil_append] at this
  rw [this]
  rcases hn with hn | hn | rfl
  · exact csv_round_trip str parse hrt n g hg.2 hne (.inl hn)
  · exact csv_round_trip str parse hrt n g hg.2 hne (.inr hn)
  · have : gridToCsv str ([[none]] : Grid X) = [] := rfl
    rw [this]
    rfl

/-- **C73.** With one column, empty rows at the beginning and at the end are lost: the
results of the server for source `i` belong to row `i + a` of the form. -/
theorem C73_one_column (str : X → Text) (parse : Text → Parsed X) (hrt : RoundTrips str parse)
    {g : Grid X} (hr : Rect 1 g) (hg : g ≠ []) (h1 : g.head? ≠ some [none]) (h2 : g.getLast? ≠ some [none])
    (a b : Nat) :
    csvToMasked parse (jsAsCsv str (List.replicate a [none] ++ g ++ List.replicate b [none])) = .ok g := by
  have happ : ∀ x y : Grid X, jsAsCsv str (x ++ y) = jsAsCsv str x ++ jsAsCsv str y := by
    intro x y; simp [jsAsCsv]
  have hrep : ∀ k, ∀ c ∈ jsAsCsv str (List.replicate k ([none] : List (Option X))), isBlank c = true := by
    intro k c hc
    simp only [jsAsCsv, List.mem_flatMap, List.mem_replicate] at hc
    obtain ⟨row, ⟨-, rfl⟩, hc⟩ := hc
    simp only [List.map_cons, List.map_nil, joinWith, List.nil_append, List.mem_singleton] at hc
    subst hc
    decide
  rw [happ, happ, sent_eq parse _ _ _ (hrep a) (hrep b)]
  exact C73_sent str parse hrt (m := g.length) (n := 1) (List.length_pos_iff.2 hg) ⟨rfl, hr⟩
    (.inr (.inl ⟨rfl, h1, h2⟩))

end

/-! ### Animations -/

/-- **C75.** Once a non-empty animation is loaded, the frame shown always exists; the keys
move by one frame and stop at the ends. -/
theorem C75_frames (n : Nat) (hn : 0 < n) (ops : List AnimatorOp) (a a' : AnimatorState)
    (h : (AnimatorOp.load n :: ops).foldlM AnimatorState.op a = .ok a') :
    0 ≤ a'.current ∧ a'.current < a'.frames ∧
    (∃ b, a'.op .next = .ok b ∧ b.frames = a'.frames ∧
      (a'.current + 1 < a'.frames → b.current = a'.current + 1) ∧
      (a'.current + 1 = a'.frames → b.current = a'.current)) ∧
    (∃ b, a'.op .previous = .ok b ∧ b.frames = a'.frames ∧
      (0 < a'.current → b.current = a'.current - 1) ∧ (a'.current = 0 → b.current = 0)) := by
  have inv : ∀ (ops : List AnimatorOp) (a a' : AnimatorState), 0 ≤ a.current → a.current < a.frames →
      ops.foldlM AnimatorState.op a = .ok a' → 0 ≤ a'.current ∧ a'.current < a'.frames := by
    intro ops
    induction ops with
    | nil => rintro a a' h1 h2 h; cases h; exact ⟨h1, h2⟩
    | cons o ops ih =>
      intro a a' h1 h2 h
      rw [List.foldlM_cons] at h
      cases o with
      | load k =>
        simp only [AnimatorState.op] at h
        split at h
        · cases h
        · exact ih _ a' (by simp) (by simp; omega) h
      | previous =>
        exact ih (a.setFrame (a.current - 1)) a' (by simp [AnimatorState.setFrame])
          (by simp only [AnimatorState.setFrame]; omega) h
      | next =>
        exact ih (a.setFrame (a.current + 1)) a' (by simp [AnimatorState.setFrame])
          (by simp only [AnimatorState.setFrame]; omega) h
  have h0 : 0 ≤ a'.current ∧ a'.current < a'.frames := by
    rw [List.foldlM_cons] at h
    simp only [AnimatorState.op, if_neg (by omega : ¬ n = 0)] at h
    exact inv ops _ a' (by simp) (by simp; omega) h
  refine ⟨h0.1, h0.2, ⟨_, rfl, rfl, ?_, ?_⟩, ⟨_, rfl, rfl, ?_, ?_⟩⟩ <;>
    simp only [AnimatorState.setFrame] <;> omega

/-- No action fails as long as the animations loaded have frames; an animation without
frames cannot be shown. -/
theorem C75_no_failure (ops : List AnimatorOp) (a : AnimatorState) :
    (∃ a', ops.foldlM AnimatorState.op a = .ok a') ↔ ∀ k, AnimatorOp.load k ∈ ops → 0 < k := by
  induction ops generalizing a with
  | nil => simp [pure, Except.pure]
  | cons o ops ih =>
    rw [List.foldlM_cons]
    cases o with
    | load k =>
      simp only [AnimatorState.op]
      split
      · rename_i hk
        subst hk
        refine ⟨?_, fun h => ?_⟩
        · rintro ⟨_, h⟩
          cases h
        have := h 0 (by simp)
        omega
      · rename_i hk
        have := ih { frames := k, current := 0 }
        constructor
        · intro h k' hk'
          rcases List.mem_cons.1 hk' with e | hm
          · cases e; omega
          · exact this.1 h k' hm
        · intro h
          exact this.2 fun k' hm => h k' (by simp [hm])
    | previous =>
      have := ih (a.setFrame (a.current - 1))
      constructor
      · intro h k' hk'
        rcases List.mem_cons.1 hk' with e | hm
        · cases e
        · exact this.1 h k' hm
      · intro h
        exact this.2 fun k' hm => h k' (by simp [hm])
    | next =>
      have := ih (a.setFrame (a.current + 1))
      constructor
      · intro h k' hk'
        rcases List.mem_cons.1 hk' with e | hm
        · cases e
        · exact this.1 h k' hm
      · intro h
        exact this.2 fun k' hm => h k' (by simp [hm])

/-! ### Examples -/
section
open Toy

/-- Zeros are lost by the form, not by the server. -/
example : jsLoadCsv (fun t => match parseDigit t with | .num x => some x | _ => none)
      (fun x : Fin 10 => x = 0) "1,0\n,3".toList = .ok [[some 1, none], [none, some 3]] ∧
    csvToMasked parseDigit "1,0\n,3".toList = .ok [[some 1, some 0], [none, some 3]] := by
  constructor <;> rfl

/-- A text that ends with a newline is not accepted if it has several columns. -/
example : jsLoadCsv (fun t => match parseDigit t with | .num x => some x | _ => none)
      (fun x : Fin 10 => x = 0) "1,0\n,3\n".toList = .error .rowLength := rfl

/-- `addSource` without rows would fail; the form never gets there (`C73_rectangular`). -/
example : jsAddSource ([] : Grid Nat) = .error .typeError := rfl

/-- A history that meets the hypotheses. -/
example : Edited (X := Nat) [] (fun _ => none) (fun _ => false) [[some 1, some 2]]
    [[none], [some 5]] := by
  have e1 : Edited (X := Nat) [] (fun _ => none) (fun _ => false) [[some 1, some 2]] _ :=
    .step _ _ (.deleteVariable 0) .start ⟨_, rfl, by decide, by decide⟩ rfl
  have e2 := Edited.step _ _ .addSource e1 trivial rfl
  have e3 := Edited.step _ _ (.setCell 1 0 (some 5)) e2 ⟨_, rfl, by decide⟩ rfl
  have e4 := Edited.step _ _ (.setCell 0 0 none) e3 ⟨_, rfl, by decide⟩ rfl
  exact e4

example : csvToMasked parseDigit (jsAsCsv digit [[none], [some 1], [none], [some 2], [none]]) =
    .ok [[some 1], [none], [some 2]] :=
  C73_one_column digit parseDigit digit_roundTrips (g := [[some 1], [none], [some 2]])
    (by intro r hr; simp at hr; rcases hr with rfl | rfl | rfl <;> rfl) (by simp) (by simp) (by simp) 1 1

end
end TD
