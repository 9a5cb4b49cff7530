import Verif.Props.Page
import Verif.Props.Form
import Verif.Lemmas.Results
import Mathlib.Data.List.Lex
import Mathlib.Data.Char
/-!
# C82: the tables of the page with the results, and the answers of the server
-/

namespace TD
open Spec

/-! ### Tables -/

theorem orderBy_spec (asc byScore : Bool) (l : List (Text × ℝ)) :
    (orderBy asc byScore l).Perm l ∧ (orderBy asc byScore l).Pairwise fun a b => match byScore, asc with
      | true, true => a.2 ≤ b.2
      | true, false => b.2 ≤ a.2
      | false, true => a.1 ≤ b.1
      | false, false => b.1 ≤ a.1 := by
  unfold orderBy
  cases byScore <;> cases asc
  · have := pySorted_spec (lt := fun (a b : Text × ℝ) => decide (b.1 < a.1)) (k := fun a => OrderDual.toDual a.1)
      (fun a b => decide_eq_decide.2 Iff.rfl) l
    exact ⟨this.2.1, this.1⟩
  · have := pySorted_spec (lt := fun (a b : Text × ℝ) => decide (a.1 < b.1)) (k := fun a => a.1)
      (fun a b => decide_eq_decide.2 Iff.rfl) l
    exact ⟨this.2.1, this.1⟩
  · have := pySorted_spec (lt := fun (a b : Text × ℝ) => decide (b.2 < a.2)) (k := fun a => OrderDual.toDual a.2)
      (fun a b => rfl) l
    exact ⟨this.2.1, this.1⟩
  · have := pySorted_spec (lt := fun (a b : Text × ℝ) => decide (a.2 < b.2)) (k := fun a => a.2)
      (fun a b => rfl) l
    exact ⟨this.2.1, this.1⟩

theorem jsMax_spec {l : List ℝ} {x : ℝ} (hx : x ∈ l) : some x = jsMax l ↔ ∀ y ∈ l, y ≤ x := by
  cases l with
  | nil => cases hx
  | cons a l =>
    have key : ∀ (l : List ℝ) (a : ℝ), (∀ y ∈ a :: l, y ≤ l.foldl max a) ∧ l.foldl max a ∈ a :: l := by
      intro l
      induction l with
      | nil => intro a; simp
      | cons b l ih =>
        intro a
        obtain ⟨h1, h2⟩ := ih (max a b)
        rw [List.foldl_cons]
        refine ⟨?_, ?_⟩
        · intro y hy
          have hm := h1 (max a b) List.mem_cons_self
          rcases List.mem_cons.1 hy with rfl | hy
          · exact (le_max_left _ _).trans hm
          · rcases List.mem_cons.1 hy with rfl | hy
            · exact (le_max_right _ _).trans hm
            · exact h1 y (List.mem_cons_of_mem _ hy)
        · rcases List.mem_cons.1 h2 with h2 | h2
          · rw [h2]
            rcases max_choice a b with h | h <;> rw [h] <;> simp
          · simp [h2]
    obtain ⟨h1, h2⟩ := key l a
    unfold jsMax
    rw [Option.some.injEq]
    constructor
    · rintro rfl
      exact h1
    · intro h
      exact le_antisymm (h1 x hx) (h _ h2)

theorem rows_of (env : JsEnv) (asc byScore : Bool) (l : List (Text × ℝ)) (diff : List (Text × ℝ)) :
    RowsOf env l byScore asc (fun k => Dict.get? diff k)
      ((orderBy asc byScore l).map (resultRow env (jsMax (l.map Prod.snd)) diff)) where
  all := by
    rw [List.map_map]
    have : ((fun r : ResultRow => (r.key, r.score)) ∘ resultRow env (jsMax (l.map Prod.snd)) diff) = id := rfl
    rw [this, List.map_id]
    exact (orderBy_spec asc byScore l).1
  order := by
    rw [List.pairwise_map]
    exact (orderBy_spec asc byScore l).2
  bold := by
    intro r hr
    obtain ⟨x, hx, rfl⟩ := List.mem_map.1 hr
    have hx' : x ∈ l := (orderBy_spec asc byScore l).1.mem_iff.1 hx
    simp only [resultRow, decide_eq_true_iff]
    rw [jsMax_spec (List.mem_map_of_mem hx')]
    unfold Largest
    simp only [List.forall_mem_map]
  number := by
    intro r hr
    obtain ⟨x, hx, rfl⟩ := List.mem_map.1 hr
    rfl
  colour := by
    intro r hr
    obtain ⟨x, hx, rfl⟩ := List.mem_map.1 hr
    simp only [resultRow]
    cases Dict.get? diff x.1 with
    | none => simp [diffClass]
    | some d =>
      simp only [diffClass, Option.some.injEq, exists_eq_left']
      by_cases h1 : 0 < d
      · simp [h1, h1.le]
      · by_cases h2 : d < 0
        · simp [h1, h2]
        · simp [h1, h2]
  difference := by
    intro r hr
    obtain ⟨x, hx, rfl⟩ := List.mem_map.1 hr
    simp only [resultRow]
    cases Dict.get? diff x.1 with
    | none => rfl
    | some d => rfl

/-- **C82.** The table of trust scores shows every source with its score exactly once, sorted by
the column chosen; bold are exactly the largest scores; differences are shown where there are
earlier scores, in green if the score has grown and in red if it has fallen. -/
theorem C82_trust (env : JsEnv) (s : SortState) (o : JsOut) :
    ∃ rows, trustTable env s o.ready = .ok rows ∧
      RowsOf env o.scores.trust (decide (s.col .trust = .trust)) (s.ascending .trust)
        (fun k => o.diff.bind fun d => Dict.get? d.trust k) rows := by
  refine ⟨_, rfl, ?_⟩
  have := rows_of env (s.ascending .trust) (decide (s.col .trust = .trust)) o.scores.trust
    ((o.diff.map JsDiff.trust).getD [])
  cases h : o.diff with
  | none => rw [h] at this; exact this
  | some d => rw [h] at this; exact this

/-- **C82.** The table of belief scores has one block for each variable, which shows its values
in the same way; bold are the largest scores for this variable. -/
theorem C82_belief (env : JsEnv) (s : SortState) (o : JsOut) (hn : (o.scores.belief.map Prod.fst).Nodup) :
    ∃ blocks, beliefTable env s o.ready = .ok blocks ∧
      List.Forall₂ (fun p b => b.1 = p.1 ∧ b.2.1 = (env.number p.1).map (· + 1) ∧
        RowsOf env p.2 (decide (s.col .belief = .belief)) (s.ascending .belief)
          (fun k => o.diff.bind fun d => beliefAt d.belief p.1 k) b.2.2) o.scores.belief blocks := by
  refine ⟨_, rfl, ?_⟩
  rw [List.forall₂_map_right_iff, List.forall₂_same]
  intro p hp
  refine ⟨rfl, rfl, ?_⟩
  have hm : Dict.get? (o.scores.belief.map fun p => (p.1, jsMax (p.2.map Prod.snd))) p.1 =
      some (jsMax (p.2.map Prod.snd)) :=
    lookup_some_of_mem (by simpa [Dict.keys, List.map_map, Function.comp_def] using hn)
      (List.mem_map.2 ⟨p, hp, rfl⟩)
  dsimp only
  rw [hm]
  have := rows_of env (s.ascending .belief) (decide (s.col .belief = .belief)) p.2
    ((Dict.get? ((o.diff.map JsDiff.belief).getD []) p.1).getD [])
  have hd : (fun k => o.diff.bind fun d => beliefAt d.belief p.1 k) =
      fun k => Dict.get? ((Dict.get? ((o.diff.map JsDiff.belief).getD []) p.1).getD []) k := by
    funext k
    cases h : o.diff with
    | none => rfl
    | some d =>
      simp only [Option.map_some, Option.getD_some, Option.bind_some, beliefAt]
      cases Dict.get? d.belief p.1 <;> rfl
  rw [hd]
  exact this

/-- **C82.** Differences smaller than 999 are shown with their sign and seven digits. Differences of at least 1000 are shown as `(-NaN)`. -/
theorem C82_differences {env : JsEnv} (h : JsEnvOk env) (d : ℝ) :
    (|d| < 999 → ∃ y, 0 ≤ y ∧ |y - (|d|)| ≤ 1 / 10 ^ 7 ∧
      (formatDiff env (some (env.number7 d)) = "(+".toList ++ env.str y ++ ")".toList ∧ -(1 / 10 ^ 7) ≤ d ∨
       formatDiff env (some (env.number7 d)) = "(-".toList ++ env.str y ++ ")".toList ∧ d < 0)) ∧
    (1000 ≤ |d| → formatDiff env (some (env.number7 d)) = "(-NaN)".toList) := by
  constructor
  · intro hd
    obtain ⟨y, h1, h2, h3, h4⟩ := h.small d hd
    refine ⟨|y|, abs_nonneg _, (abs_abs_sub_abs_le_abs_sub y d).trans h2, ?_⟩
    unfold formatDiff
    simp only [h1]
    by_cases hy : 0 ≤ y
    · left
      rw [if_pos hy]
      refine ⟨by simp, ?_⟩
      have := (abs_le.1 h2).2
      linarith
    · right
      rw [if_neg hy]
      refine ⟨by simp, ?_⟩
      by_contra hd'
      exact hy (h3 (not_lt.1 hd'))
  · intro hd
    unfold formatDiff
    simp only [h.large d hd]

/-- **C82.** Sources are sorted as texts, not as numbers: at first the row of the source with
key "10" (shown as 11) is always above that of the source with key "2" (shown as 3). -/
theorem C82_text_order (env : JsEnv) (o : JsOut) {rows : List ResultRow}
    (hr : trustTable env {} o.ready = .ok rows) (i j : Nat) (a b : ResultRow) (hi : rows[i]? = some a)
    (hj : rows[j]? = some b) (ha : a.key = "10".toList) (hb : b.key = "2".toList) : i < j := by
  obtain ⟨rows', h1, h2⟩ := C82_trust env {} o
  rw [hr] at h1
  cases h1
  have ho := h2.order
  rw [List.pairwise_iff_getElem] at ho
  obtain ⟨hi', rfl⟩ := List.getElem?_eq_some_iff.1 hi
  obtain ⟨hj', rfl⟩ := List.getElem?_eq_some_iff.1 hj
  have hlt : ("10".toList : Text) < "2".toList := by decide
  rcases lt_trichotomy i j with h | h | h
  · exact h
  · subst h
    rw [ha] at hb
    exact absurd hb (by decide)
  · have := ho j i hj' hi' h
    have hle : rows[j].key ≤ rows[i].key := this
    rw [ha, hb] at hle
    exact absurd hlt (not_lt.2 hle)

/-! ### Answers and tabs -/

/-- **C82.** Whatever state the page is in (even after an answer it could not show), a proper
answer is shown completely; the tab stays where it is if there are new results for it. -/
theorem C82_recovers (measure : ℝ → Text → ℝ) (p : JsPage) {sel : Selection} {data : List (Text × JsOut)}
    {ms : List Text} (hp : ProperAnswer sel (.ok data ms)) :
    ∃ p', p.received measure sel data ms = (p', none) ∧ p'.status = .hasResults ∧ p'.messages = ms ∧
      p'.results = some (data.map fun x => (x.1, x.2.ready)) ∧
      (∀ t, p.shown = some t → t ∈ data.map Prod.fst → p'.shown = some t) ∧
      ((∀ t, p.shown = some t → t ∉ data.map Prod.fst) → p'.shown = (data.map Prod.fst).head?) ∧
      ∀ label o f, (label, o) ∈ data → readDoc o.graph = some f →
        ∀ k : Canvas, CanvasShows measure (k.after (p'.graphCalls label)) f := by
  obtain ⟨q, e1, e2, e3, e4, e5, e6, e7⟩ := showAll_ok measure data hp.1 hp.2.2.1
    { p with
      results := some (data.map fun x => (x.1, .received x.2))
      messages := ms
      status := .hasResults
      shown := nextShown p.shown (data.map Prod.fst)
      previous := keptOf sel data }
  obtain ⟨s1, s2, s3, s4, s5, s6⟩ := e2
  refine ⟨q, ?_, s1, s3, ?_, ?_, ?_, ?_⟩
  · unfold JsPage.received
    simp only [nextKept_ok hp]
    exact e1
  · rw [e3]
    simp only [Option.map_some, List.map_map, Option.some.injEq]
    refine List.map_congr_left fun x hx => ?_
    have : Dict.get? data x.1 = some x.2 := lookup_some_of_mem hp.1 hx
    simp only [Function.comp, this]
  · intro t ht hm
    rw [s2]
    show nextShown p.shown _ = _
    rw [ht]
    exact if_pos hm
  · intro h
    rw [s2]
    show nextShown p.shown _ = _
    cases hs : p.shown with
    | none => rfl
    | some t => exact if_neg (h t hs)
  · intro label o f hm hf
    exact e5 label o (lookup_some_of_mem hp.1 hm) f hf

/-- **C82.** There is exactly one tab for each algorithm with results, in the order of their
names, and each can be chosen. -/
theorem C82_tabs (measure : ℝ → Text → ℝ) (upper : Char → Char) (name : Text → Text) (p : JsPage)
    (l : List (Text × JsEntry)) (hl : p.results = some l) :
    (availableLabels name p).Perm (l.map Prod.fst) ∧
    (availableLabels name p).Pairwise (fun a b => name a ≤ name b) ∧
    (p.status = .hasResults → ∀ label ∈ availableLabels name p,
      p.event measure upper (.tab label) = some { p with shown := some label }) := by
  have e : availableLabels name p = pySorted (fun a b => decide (name a < name b)) (l.map Prod.fst) := by
    unfold availableLabels
    rw [hl]
  have h := pySorted_spec (lt := fun a b => decide (name a < name b)) (k := name)
    (fun a b => decide_eq_decide.2 Iff.rfl) (l.map Prod.fst)
  rw [e]
  refine ⟨h.2.1, h.1, fun hs label hm => ?_⟩
  have hm' := h.2.1.mem_iff.1 hm
  unfold JsPage.event
  simp only [hl]
  rw [if_pos ⟨hs, hm'⟩]

/-- **C82.** There are no tabs before there are results. -/
theorem C82_no_tabs (name : Text → Text) (p : JsPage) (h : p.results = none) : availableLabels name p = [] := by
  unfold availableLabels
  rw [h]

/-! ### Answers of the server -/

section
variable {X : Type} [DecidableEq X]

theorem webPicture_drawable (env : Env X .exact) (l : List (Nat × Nat × X)) (p : Scores Nat Nat X) :
    ∀ e ∈ (webPicture env l p).1, Drawable e := by
  have h1 : Rgb [1, 1, 1] := rgb3 (by norm_num) (by norm_num) (by norm_num)
  have h2 : Rgb [0.5, 0.5, 0.5] := rgb3 (by norm_num) (by norm_num) (by norm_num)
  have h3 : Rgb [0, 0, 0] := rgb3 (by norm_num) (by norm_num) (by norm_num)
  have h4 : Rgb [0.15, 0.15, 0.15] := rgb3 (by norm_num) (by norm_num) (by norm_num)
  have h7 : Rgb [0.667, 0.224, 0.224] := rgb3 (by norm_num) (by norm_num) (by norm_num)
  have hg : ∀ x, Rgb (greens.getD (shade x) []) := by
    intro x
    have hlt : shade x < greens.length := by
      have := List.length_filter_le (fun i : Nat => decide (((i : ℝ) + 1) / 9 ≤ x)) (List.range 8)
      rw [List.length_range] at this
      have h : greens.length = 9 := rfl
      unfold shade
      omega
    rw [List.getD_eq_getElem?_getD, List.getElem?_eq_getElem hlt, Option.getD_some]
    exact greens_rgb _ (List.getElem_mem hlt)
  have hl : ∀ x, Rgb (labelShade x) := by
    intro x
    unfold labelShade
    split
    · exact h3
    · exact h1
  intro e he
  refine (C81_picture (webDrawing env) l _ (colour := scoreColour p) none h1 h2 h3 ?_ ?_ ?_ ?_ ?_ e he).1
  · intro h
    cases h with
    | source s => exact ⟨hg _, hl _, h4⟩
    | claim v x => exact ⟨hg _, hl _, h4⟩
    | var v => exact ⟨h7, h1, h4⟩
  all_goals (simp only [webDrawing]; norm_num)

/-- Partial results are missing only for CRH with an iterator that is finished at the start. -/
theorem runIter_nonempty {S V Y α : Type} [DecidableEq S] [DecidableEq V] [DecidableEq Y] [Arith α]
    (l : List (S × V × Y)) (f : Option (V → Y → Y → Option α)) (c : AlgCfg α) (fuel : Nat) (clock : Nat → α)
    (st : IterState α) (rs : List (Result S V Y α)) (h : c.runIter (datasetOf l f) fuel clock st = .ok rs)
    (hc : ∀ eps, c.kind = .crh eps → (∀ n, c.iterator = .fixed n → 0 < n) ∧ ∀ n, c.iterator ≠ .ord n) : rs ≠ [] := by
  rw [runIter_eq] at h
  split at h
  · cases h
  · rename_i r hr
    cases h
    intro he
    have hlog : r.log = [] := by
      have := congrArg List.length he
      simpa [enum] using this
    obtain ⟨-, t0, b0, n, st', t, b, L, hi, -, hs, hst, hf, hit, hL⟩ := (exec_ok_iff c _ fuel st r).1 hr
    obtain ⟨-, -, -, -, h1, h2⟩ := log_of_exec hr
    cases hk : c.kind.logsInit with
    | true =>
      have := (h1 hk).1
      rw [hlog] at this
      simp at this
    | false =>
      have hn : n = 0 := by
        have := (h2 hk).1
        rw [hlog, hit] at this
        exact this.symm
      subst hn
      obtain ⟨eps, hkk⟩ : ∃ eps, c.kind = .crh eps := by
        cases hkk : c.kind with
        | crh eps => exact ⟨eps, rfl⟩
        | _ => rw [hkk] at hk; cases hk
      have hst0 : st'.itCount = 0 ∧ st'.dist = none := by
        cases hs
        exact ⟨rfl, rfl⟩
      obtain ⟨hc1, hc2⟩ := hc eps hkk
      rcases hst with hst | ⟨-, hst⟩
      · cases hci : c.iterator with
        | fixed k =>
          rw [hci] at hst
          have hk0 := hc1 k hci
          simp only [IterCfg.finished, hst0.1, Except.ok.injEq, decide_eq_true_iff] at hst
          simp at hst
          omega
        | conv ms th lim =>
          rw [hci] at hst
          simp only [IterCfg.finished, IterState.below, hst0.2] at hst
          split at hst
          · rename_i hh; cases hh
          · split at hst <;> cases hst
        | ord k => exact hc2 k hci
      · rw [hkk] at hst
        rcases body_none hst with ⟨g, hg⟩ | ⟨g, hg⟩ | ⟨a, b, c, hg⟩ <;> cases hg

theorem fin_injective : Function.Injective (Ex.fin : ℝ → Ex) := fun _ _ h => by
  cases h; rfl

/-- An entry of a dictionary of numbers that was sent. -/
theorem sent_iff {κ : Type} [DecidableEq κ] {str : κ → Text} {d : List (κ × Ex)} {l : List (Text × ℝ)}
    (h : (l.map fun p => (p.1, Ex.fin p.2)).Perm (d.map fun p => (str p.1, p.2))) (t : Text) (x : ℝ) :
    (t, x) ∈ l ↔ ∃ k, t = str k ∧ (k, Ex.fin x) ∈ d := by
  have : (t, x) ∈ l ↔ (t, Ex.fin x) ∈ l.map fun p => (p.1, Ex.fin p.2) := by
    constructor
    · intro hm
      exact List.mem_map.2 ⟨_, hm, rfl⟩
    · intro hm
      obtain ⟨⟨a, b⟩, hm', e⟩ := List.mem_map.1 hm
      injection e with e1 e2
      cases e1
      cases fin_injective e2
      exact hm'
  rw [this, h.mem_iff]
  constructor
  · intro hm
    obtain ⟨⟨k, y⟩, hm, e⟩ := List.mem_map.1 hm
    injection e with e1 e2
    exact ⟨k, e1.symm, e2 ▸ hm⟩
  · rintro ⟨k, rfl, hm⟩
    exact List.mem_map.2 ⟨_, hm, rfl⟩

theorem sent_nodup {κ : Type} [DecidableEq κ] {str : κ → Text} (hs : Function.Injective str) {d : List (κ × Ex)}
    {l : List (Text × ℝ)} (h : (l.map fun p => (p.1, Ex.fin p.2)).Perm (d.map fun p => (str p.1, p.2)))
    (hd : (d.map Prod.fst).Nodup) : (l.map Prod.fst).Nodup := by
  have h' := h.map Prod.fst
  rw [List.map_map, List.map_map] at h'
  have e1 : (Prod.fst ∘ fun p : Text × ℝ => (p.1, Ex.fin p.2)) = Prod.fst := rfl
  have e2 : (Prod.fst ∘ fun p : κ × Ex => (str p.1, p.2)) = str ∘ Prod.fst := rfl
  rw [e1, e2, ← List.map_map] at h'
  exact h'.nodup_iff.2 (hd.map hs)

/-- **C82.** What arrives of an answer of the server: for each algorithm requested exactly the
scores that its run reports. -/
theorem C82_scores {env : Env X .exact} (henv : WebEnvOk env) {prev : Option Text} {l : List (Nat × Nat × X)}
    {d : Dataset Nat Nat X Ex} {i : Nat} {a : AnyAlg Ex} {r : Result Nat Nat X Ex} {out : WebOut X Ex}
    (h : Presented env prev l d i a r out) {o : JsOut} (ho : Received env out o) :
    ∃ p, Reports l r p ∧ ScoresOf env l p o.scores ∧ readDoc o.graph = some (webPicture env l p) := by
  obtain ⟨p, hp, hn, hg⟩ := h.graph
  have hw := C47_runs a d _ _ r h.run
  have hsh : Shaped r := C51_runs a d _ _ r h.run
  have g1 : out.fields.get? .trust = some (.trust r.trust) := by
    obtain ⟨v, hv⟩ := (h.keys .trust).2 nofun
    have := h.values _ _ hv
    cases this; exact hv
  have g2 : out.fields.get? .belief = some (.belief r.belief) := by
    obtain ⟨v, hv⟩ := (h.keys .belief).2 nofun
    have := h.values _ _ hv
    cases this; exact hv
  have k1 := ho.trust _ g1
  obtain ⟨b', hb', hf⟩ := ho.belief _ g2
  refine ⟨p, hp, ?_, by rw [ho.graph]; exact hg⟩
  have hfst : b'.map Prod.fst = (r.belief.map Prod.fst).map env.strNat := by
    clear hb'
    generalize r.belief = B at hf
    induction hf with
    | nil => rfl
    | cons h1 _ ih => rw [List.map_cons, List.map_cons, List.map_cons, ih, h1.1]
  have hfrom : ∀ t D, (t, D) ∈ o.scores.belief → ∃ v D', t = env.strNat v ∧ r.belief.get? v = some D' ∧
      (D.map fun p => (p.1, Ex.fin p.2)).Perm (D'.map fun p => (env.strVal p.1, p.2)) := by
    intro t D hm
    rw [← hb'.mem_iff] at hm
    have : ∃ y ∈ r.belief, t = env.strNat y.1 ∧
        (D.map fun p => (p.1, Ex.fin p.2)).Perm (y.2.map fun p => (env.strVal p.1, p.2)) := by
      clear hfst hb'
      generalize r.belief = B at hf
      induction hf with
      | nil => cases hm
      | cons h1 _ ih =>
        rcases List.mem_cons.1 hm with rfl | hm
        · exact ⟨_, List.mem_cons_self, h1⟩
        · obtain ⟨y, hy, h2⟩ := ih hm
          exact ⟨y, List.mem_cons_of_mem _ hy, h2⟩
    obtain ⟨⟨v, D'⟩, hy, h1, h2⟩ := this
    exact ⟨v, D', h1, lookup_some_of_mem hw.2.1 hy, h2⟩
  have hbel : ∀ v D x y, r.belief.get? v = some D → ((x, Ex.fin y) ∈ D ↔ (v, x) ∈ allClaims l ∧ y = p.2 (v, x)) := by
    intro v D x y hD
    have hr := hp.2 v x
    rw [hD, Option.bind_some] at hr
    constructor
    · intro hm
      have hl : Dict.get? D x = some (Ex.fin y) := lookup_some_of_mem (hw.2.2 v D hD) hm
      rw [hr] at hl
      split at hl
      · rename_i hc
        injection hl with hl
        exact ⟨hc, (fin_injective hl).symm⟩
      · cases hl
    · rintro ⟨hc, rfl⟩
      rw [if_pos hc] at hr
      exact mem_of_lookup_some hr
  constructor
  · exact sent_nodup henv.strNat k1 hw.1
  · intro t x
    rw [sent_iff k1]
    constructor
    · rintro ⟨s, rfl, hm⟩
      have hl : r.trust.get? s = some (Ex.fin x) := lookup_some_of_mem hw.1 hm
      rw [hp.1 s] at hl
      split at hl
      · rename_i hs
        injection hl with hl
        exact ⟨s, hs, rfl, (fin_injective hl).symm⟩
      · cases hl
    · rintro ⟨s, hs, rfl, rfl⟩
      have := hp.1 s
      rw [if_pos hs] at this
      exact ⟨s, rfl, mem_of_lookup_some this⟩
  · have := hb'.map Prod.fst
    rw [← this.nodup_iff, hfst]
    exact hw.2.1.map henv.strNat
  · intro t
    rw [← (hb'.map Prod.fst).mem_iff, hfst]
    constructor
    · intro hm
      obtain ⟨v, hv, rfl⟩ := List.mem_map.1 hm
      obtain ⟨D, hD⟩ := mem_keys_iff.1 (show v ∈ r.belief.keys from hv)
      have hne := hsh.2 v D hD
      obtain ⟨⟨x, y⟩, hxy⟩ := List.exists_mem_of_ne_nil _ hne
      have hr := hp.2 v x
      have hl : Dict.get? D x = some y := lookup_some_of_mem (hw.2.2 v D hD) hxy
      rw [hD, Option.bind_some, hl] at hr
      split at hr
      · rename_i hc
        exact ⟨v, x, hc, rfl⟩
      · cases hr
    · rintro ⟨v, x, hc, rfl⟩
      have hr := hp.2 v x
      rw [if_pos hc] at hr
      obtain ⟨D, hD, -⟩ := Option.bind_eq_some_iff.1 hr
      exact List.mem_map.2 ⟨v, mem_keys_iff.2 ⟨D, hD⟩, rfl⟩
  · intro t D hm
    obtain ⟨v, D', rfl, hD', hperm⟩ := hfrom t D hm
    exact sent_nodup henv.strVal hperm (hw.2.2 v D' hD')
  · intro v D hm u y
    obtain ⟨v', D', e, hD', hperm⟩ := hfrom _ D hm
    cases henv.strNat e
    rw [sent_iff hperm]
    constructor
    · rintro ⟨x, rfl, hx⟩
      exact ⟨x, ((hbel v D' x y hD').1 hx).1, rfl, ((hbel v D' x y hD').1 hx).2⟩
    · rintro ⟨x, hc, rfl, hy⟩
      exact ⟨x, rfl, (hbel v D' x y hD').2 ⟨hc, hy⟩⟩

/-- **C82.** Answers of the server are proper, unless CRH is asked to do no iteration. -/
theorem C82_answer {env : Env X .exact} {prev : Option Text} {text : Option Text} {ps : Dict Text (PVal Ex)}
    (hps : ParamsMean env.digit env.parseFloat text ps) {l : List (Nat × Nat × X)}
    {d : Dataset Nat Nat X Ex} (hd : Dataset.mk' l false none = .ok d) {labels : List Text} (hl : labels ≠ [])
    {data : Dict Text (WebOut X Ex)} {messages : List Text} (h : Answer env prev ps l d labels (.ok data messages))
    (hcrh : "crh".toList ∈ labels → ∀ n, ps.get? "iterator".toList = some (.iterator (.fixed n)) → 0 < n)
    {data' : List (Text × JsOut)} (hr : ReceivedAll env data data') :
    ProperAnswer (.many labels) (.ok data' messages) := by
  obtain ⟨hr1, hr2, hr3⟩ := hr
  generalize hresp : Response.ok data messages = resp at h
  cases h with
  | error => cases hresp
  | ok data0 mss h1 h2 h3 h4 hms =>
    cases hresp
    refine ⟨hr1, ?_, ?_, ?_⟩
    · rintro rfl
      obtain ⟨label, hlab⟩ := List.exists_mem_of_ne_nil _ hl
      have := (hr2 label).2 ((h3 label).2 hlab)
      cases this
    · rintro ⟨label, o⟩ hm
      obtain ⟨out, ho, hro⟩ := hr3 label o hm
      obtain ⟨i, c, a, r, hi, -, hc, hcon, hp⟩ := h4 label out ho
      constructor
      · obtain ⟨p, -, -, hg⟩ := hp.graph
        exact ⟨_, by rw [hro.graph]; exact hg, webPicture_drawable env l p⟩
      · intro doc hdoc
        rw [hro.animation] at hdoc
        have ha := hp.animation
        cases a with
        | voting => simp only at ha; rw [ha] at hdoc; cases hdoc
        | iter cfg =>
          simp only at ha
          obtain ⟨rs, qs, doc', hrun, hreps, hnn, he, hread⟩ := ha
          rw [he] at hdoc
          cases hdoc
          refine ⟨5, _, hread, ?_, ?_⟩
          · have hne : rs ≠ [] := by
              obtain rfl := mk'_ex hd
              refine runIter_nonempty l none cfg _ _ _ rs hrun ?_
              intro eps hk
              obtain ⟨-, -, -, hord⟩ := constructed_iter hps hcon
              have hcc : c = .crh := by
                cases hcon <;> cases hk <;> rfl
              subst hcc
              refine ⟨fun n hn => ?_, fun n hn => ?_⟩
              · cases hcon with
                | crh eps' it p g0 g1 g2 =>
                  have hn' : it = .fixed n := hn
                  subst hn'
                  rcases g1 with g1 | ⟨-, g1⟩
                  · exact hcrh (hc ▸ List.mem_of_getElem? hi) n g1
                  · cases g1; norm_num
              · cases hord n hn
            intro e
            have := hreps.length_eq
            rw [List.map_eq_nil_iff.1 e] at this
            exact hne (List.length_eq_zero_iff.1 this)
          · intro f hf
            obtain ⟨q, -, rfl⟩ := List.mem_map.1 hf
            exact webPicture_drawable env l q
    · intro label hlab
      cases hlab
      have hk : ∀ k, k ∈ data'.map Prod.fst ↔ k = label := by
        intro k
        rw [hr2, h3, List.mem_singleton]
      match data', hr1, hk with
      | [], _, hk => cases (hk label).2 rfl
      | [(k, o)], _, hk =>
        have : k = label := (hk k).1 (by simp)
        subst this
        exact ⟨o, rfl⟩
      | (k, o) :: (k', o') :: rest, hr1, hk =>
        have e1 : k = label := (hk k).1 (by simp)
        have e2 : k' = label := (hk k').1 (by simp)
        subst e1 e2
        simp at hr1

/-- **C82.** The differences are those between the scores shown and the earlier ones. -/
theorem C82_diff {env : Env X .exact} {prev : Option Text} {l : List (Nat × Nat × X)}
    {d : Dataset Nat Nat X Ex} {i : Nat} {a : AnyAlg Ex} {r : Result Nat Nat X Ex} {out : WebOut X Ex}
    (h : Presented env prev l d i a r out) {o : JsOut} (ho : Received env out o) {p : Scores Nat Nat X}
    (hp : Reports l r p) :
    (prev = none → o.diff = none) ∧
    ∀ t j (trust : Dict Text ℝ) (belief : Dict Text (Dict Text ℝ)) time iterations, prev = some t →
      env.parseJson t = some j →
      Earlier j (trust.map fun q => (q.1, Ex.fin q.2)) (belief.map fun q => (q.1, q.2.map fun q => (q.1, Ex.fin q.2)))
        time iterations →
      ∃ D, o.diff = some D ∧
        (∀ s ∈ allSources l, Dict.get? D.trust (env.strNat s) =
          (Dict.get? trust (env.strNat s)).map fun x => p.1 s - x) ∧
        ∀ v x, (v, x) ∈ allClaims l → beliefAt D.belief (env.strNat v) (env.strVal x) =
          (beliefAt belief (env.strNat v) (env.strVal x)).map fun y => p.2 (v, x) - y := by
  refine ⟨fun hn => ho.no_diff (h.diff.1 hn), fun t j trust belief time iterations ht hj he => ?_⟩
  obtain ⟨D, hD, hcmp⟩ := h.diff.2 t j _ _ time iterations ht hj he
  obtain ⟨E, hE, e1, e2⟩ := ho.diff D hD
  have hinj : ∀ a b : Option ℝ, a.map Ex.fin = b.map Ex.fin → a = b := fun a b hab =>
    Option.map_injective fin_injective hab
  refine ⟨E, hE, ?_, ?_⟩
  · intro s hs
    apply hinj
    rw [e1, hcmp.trust_of, hp.1 s, if_pos hs, lookup_mapVal]
    cases Dict.get? trust (env.strNat s) with
    | none => rfl
    | some x =>
      show some (Ex.fin (p.1 s) -. Ex.fin x) = some (Ex.fin (p.1 s - x))
      rw [Ex.sub_eq]
  · intro v x hc
    apply hinj
    have hb : beliefAt r.belief v x = some (Ex.fin (p.2 (v, x))) := by
      have := hp.2 v x
      rw [if_pos hc] at this
      exact this
    have hq : beliefAt (belief.map fun q => (q.1, q.2.map fun q => (q.1, Ex.fin q.2))) (env.strNat v) (env.strVal x) =
        (beliefAt belief (env.strNat v) (env.strVal x)).map Ex.fin := by
      unfold beliefAt
      rw [lookup_mapVal (fun m : Dict Text ℝ => m.map fun q => (q.1, Ex.fin q.2))]
      cases Dict.get? belief (env.strNat v) with
      | none => rfl
      | some m =>
        simp only [Option.map_some, Option.bind_some]
        exact lookup_mapVal _ _ _
    rw [e2, hcmp.belief_of, hb, hq]
    cases beliefAt belief (env.strNat v) (env.strVal x) with
    | none => rfl
    | some y =>
      show some (Ex.fin (p.2 (v, x)) -. Ex.fin y) = some (Ex.fin (p.2 (v, x) - y))
      rw [Ex.sub_eq]

/-- **C82.** CRH without iterations breaks the page: this can be chosen in the form (0 fixed
iterations), the server answers with an animation without frames, and the page reports results but
can show no table. -/
theorem C82_crh {env : Env X .exact} (henv : WebEnvOk env) {strInt : Int → Text} {toFixed : Ex → Text}
    {strVal : X → Text} (hf : FormOk env strInt toFixed strVal) {m n : Nat} {g : Grid X} (hm : 0 < m)
    (hn : 2 ≤ n) (hg : Dims m n g) (hne : ∃ i j v, Holds g i j v) (name : Text) (th : Option Ex) :
    ∃ req data messages out,
      formRequest strInt toFixed strVal (.many ["crh".toList]) g false none ⟨"fixed".toList, some 0, name, th⟩ [] =
        .ok req ∧
      webRun env req = .ok (.ok data messages) ∧ Dict.get? data "crh".toList = some out ∧
      ∀ (o : JsOut) (p : JsPage) (measure : ℝ → Text → ℝ) (jsenv : JsEnv) (s : SortState), Received env out o →
        ∃ p' l, p.received measure (.many ["crh".toList]) [("crh".toList, o)] messages = (p', some .typeError) ∧
          p'.status = .hasResults ∧ p'.results = some l ∧ l ≠ [] ∧
          ∀ x ∈ l, trustTable jsenv s x.2 = .error .typeError ∧ beliefTable jsenv s x.2 = .error .typeError := by
  obtain ⟨req, d, resp, h1, h2, h3, h4, h5⟩ := C74_answered henv hf hm hn hg hne ["crh".toList] (by simp)
    (by intro t ht; rw [List.mem_singleton] at ht; subst ht; exact ⟨.crh, rfl, nofun, nofun⟩)
    (SettingsMean.fixed 0 name th (by norm_num)) false none nofun
  rcases h5 with ⟨data, messages, rfl, hk⟩ | ⟨-, h⟩
  · obtain ⟨out, ho⟩ := mem_keys_iff.1 ((hk "crh".toList).2 (by simp))
    refine ⟨req, data, messages, out, h1, h3, ho, ?_⟩
    intro o p measure jsenv s hro
    generalize hresp : Response.ok data messages = resp at h4
    cases h4 with
    | error => cases hresp
    | ok data0 mss e1 e2 e3 e4 hms =>
      cases hresp
      obtain ⟨i, c, a, r, hi, -, hc, hcon, hp⟩ := e4 _ out ho
      obtain rfl := labelName_injective (e := .crh) hc.symm
      generalize hA : a = A at hcon
      cases hcon with
      | crh eps it pr g0 g1 g2 =>
        subst hA
        have hit : it = .fixed 0 := by
          rcases g1 with h | ⟨h, -⟩
          · have : some (PVal.iterator (.fixed 0)) = some (PVal.iterator it) := h
            cases this; rfl
          · cases h
        subst hit
        have ha := hp.animation
        simp only at ha
        obtain ⟨rs, qs, doc', hrun, hreps, hnn, he, hread⟩ := ha
        have hrs : rs = [] := by
          obtain rfl := mk'_ex h2
          rw [runIter_eq] at hrun
          split at hrun
          · cases hrun
          · rename_i R hR
            cases hrun
            obtain ⟨-, t0, b0, k, st', t, b, L, -, -, hs, -, -, hkk, -⟩ := (exec_ok_iff _ _ _ _ R).1 hR
            obtain ⟨-, -, -, -, -, q2⟩ := log_of_exec hR
            have hle := fixed_steps_le (N := 0) hs
            have hlen := (q2 rfl).1
            have hz : R.log = [] := List.length_eq_zero_iff.1 (by
              rw [hlen, hkk]
              have := hle
              simp at this
              omega)
            rw [hz]
            rfl
        have hqs : qs = [] := by
          have := hreps.length_eq
          rw [hrs] at this
          exact List.length_eq_zero_iff.1 this.symm
        rw [hqs, List.map_nil] at hread
        obtain ⟨q, -, -, hgr⟩ := hp.graph
        obtain ⟨p', l', r1, r2, r3, -, r4, r5⟩ := C82_no_frames jsenv s measure p "crh".toList
          (o := o) ⟨_, by rw [hro.graph]; exact hgr, webPicture_drawable env _ q⟩
          (by rw [hro.animation]; exact he) hread [] _ (.many ["crh".toList]) (.inl rfl)
        refine ⟨p', l', r1, r2, r3, ?_, r5⟩
        rintro rfl
        cases r4
  · exact absurd (show "fixed".toList = "convergence".toList from h) (by decide)

end

/-! ### Examples -/
section

/-- Integers as texts. -/
def demoEnc (k : Int) : Text := (if k < 0 then '-' else '+') :: List.replicate k.natAbs '1'

theorem demoEnc_injective : Function.Injective demoEnc := by
  intro a b h
  unfold demoEnc at h
  injection h with h1 h2
  have h3 : a.natAbs = b.natAbs := by simpa using congrArg List.length h2
  by_cases ha : a < 0 <;> by_cases hb : b < 0 <;> simp only [ha, hb, if_true, if_false] at h1
  · omega
  · exact absurd h1 (by decide)
  · exact absurd h1 (by decide)
  · omega

open Classical in
/-- Numbers are shown with seven digits (rounded towards 0). -/
noncomputable def demoJsEnv : JsEnv where
  number := fun t => if h : ∃ k, demoEnc k = t then some ((h.choose : ℝ) / 10 ^ 7) else none
  number7 := fun x => if 1000 ≤ |x| then "1,000".toList
    else demoEnc (if 0 ≤ x then ⌊x * 10 ^ 7⌋ else -⌊-x * 10 ^ 7⌋)
  str := fun _ => "?".toList

open Classical in
/-- The hypothesis about the browser is satisfiable. -/
theorem demoJsEnv_ok : JsEnvOk demoJsEnv where
  small := by
    intro x hx
    have hnum : ∀ k : Int, demoJsEnv.number (demoEnc k) = some ((k : ℝ) / 10 ^ 7) := by
      intro k
      have h : ∃ k', demoEnc k' = demoEnc k := ⟨k, rfl⟩
      show (if h : ∃ k', demoEnc k' = demoEnc k then some ((h.choose : ℝ) / 10 ^ 7) else none) = _
      rw [dif_pos h, demoEnc_injective h.choose_spec]
    have hno : ¬ 1000 ≤ |x| := by intro h; linarith
    have e7 : demoJsEnv.number7 x = demoEnc (if 0 ≤ x then ⌊x * 10 ^ 7⌋ else -⌊-x * 10 ^ 7⌋) := if_neg hno
    rw [e7]
    by_cases h0 : 0 ≤ x
    · rw [if_pos h0]
      refine ⟨_, hnum _, ?_, ?_, ?_⟩
      · have h1 := Int.floor_le (x * 10 ^ 7)
        have h2 := Int.lt_floor_add_one (x * 10 ^ 7)
        rw [abs_le]
        constructor <;> rw [← sub_nonneg] <;> ring_nf at * <;> linarith
      · intro _
        have : 0 ≤ ⌊x * 10 ^ 7⌋ := Int.floor_nonneg.2 (by positivity)
        positivity
      · intro hx0
        have : x = 0 := le_antisymm hx0 h0
        subst this
        norm_num
    · rw [if_neg h0]
      have hneg : 0 ≤ -x := by linarith
      refine ⟨_, hnum _, ?_, ?_, ?_⟩
      · have h1 := Int.floor_le (-x * 10 ^ 7)
        have h2 := Int.lt_floor_add_one (-x * 10 ^ 7)
        push_cast
        rw [abs_le]
        constructor <;> rw [← sub_nonneg] <;> ring_nf at * <;> linarith
      · intro h; exact absurd h h0
      · intro _
        have : (0 : ℝ) ≤ ⌊-x * 10 ^ 7⌋ := by
          exact_mod_cast Int.floor_nonneg.2 (by positivity)
        push_cast
        have : 0 ≤ (⌊-x * 10 ^ 7⌋ : ℝ) / 10 ^ 7 := by positivity
        linarith [neg_div (10 ^ 7 : ℝ) (⌊-x * 10 ^ 7⌋ : ℝ)]
  large := by
    intro x hx
    have e7 : demoJsEnv.number7 x = "1,000".toList := if_pos hx
    rw [e7]
    show (if h : ∃ k, demoEnc k = "1,000".toList then some ((h.choose : ℝ) / 10 ^ 7) else none) = _
    rw [dif_neg]
    rintro ⟨k, hk⟩
    unfold demoEnc at hk
    split at hk
    · exact absurd (List.cons.inj hk).1 (by decide)
    · exact absurd (List.cons.inj hk).1 (by decide)

/-- An animation with two frames. -/
noncomputable def demoFilm : Json :=
  .obj [("fps".toList, .num 5), ("frames".toList, .arr ([([], 100, 50), (demoEntities, 100, 50)].map jsonDoc))]

theorem demoFilm_read : readAnimation demoFilm = some (5, [([], 100, ((50 : Int) : ℝ)), (demoEntities, 100, ((50 : Int) : ℝ))]) := by
  have hm : ([([], 100, 50), (demoEntities, 100, 50)].map jsonDoc).mapM readDoc =
      some [([], 100, ((50 : Int) : ℝ)), (demoEntities, 100, ((50 : Int) : ℝ))] := by
    rw [List.mapM_map]
    exact mapM_some (G := fun f : Frame => (f.1, f.2.1, (f.2.2 : ℝ))) fun f _ => C58_round_trip f.1 f.2.1 f.2.2
  have h1 : field demoFilm "fps" = some (.num 5) := rfl
  have h2 : field demoFilm "frames" = some (.arr ([([], 100, 50), (demoEntities, 100, 50)].map jsonDoc)) := rfl
  unfold readAnimation numField
  simp only [h1, h2, bind, Option.bind, asArr, asNum, pure, hm]

/-- Three sources, one of them with the key "10"; a picture and an animation with two frames. -/
noncomputable def demoOut : JsOut where
  scores := ⟨[("1".toList, 1), ("2".toList, 1 / 2), ("10".toList, 1)], [("0".toList, [("7".toList, 1)])], 1, some 3⟩
  graph := jsonDoc (demoEntities, 100, 50)
  animation := some demoFilm
  diff := some ⟨[("1".toList, 1000)], []⟩

theorem demoOut_proper : ProperOut demoOut where
  graph := ⟨_, C58_round_trip demoEntities 100 50, demo_drawable⟩
  animation := by
    intro doc h
    cases h
    refine ⟨_, _, demoFilm_read, by simp, ?_⟩
    intro f hf
    simp only [List.mem_cons, List.not_mem_nil, or_false] at hf
    rcases hf with rfl | rfl
    · nofun
    · exact demo_drawable

/-- A request for Sums is answered, the user goes to the next frame, then a request for two
algorithms fails. -/
example (measure : ℝ → Text → ℝ) (upper : Char → Char) : ∃ p,
    Visit measure upper [(.many ["sums".toList], .ok [("sums".toList, demoOut)] []),
      (.many ["sums".toList, "voting".toList], .failed none)] [] p ∧
    p.status ≠ .hasResults ∧ p.error = some "Unknown error :(".toList ∧ p.previous = some demoOut.scores ∧
    (∀ k : Canvas, (k.after (p.graphCalls "sums".toList)).size = (100, 50)) := by
  have v1 := Visit.submit (measure := measure) (upper := upper) [] [] {} _ (.many ["sums".toList]) .start rfl
  have v2 := Visit.answer _ _ _ _ (.many ["sums".toList]) 0 [("sums".toList, demoOut)] [] v1 rfl rfl
  have P1 : ProperAnswer (.many ["sums".toList]) (.ok [("sums".toList, demoOut)] []) := by
    refine ⟨by simp, by simp, ?_, ?_⟩
    · intro x hx
      rw [List.mem_singleton] at hx
      subst hx
      exact demoOut_proper
    · intro label h
      cases h
      exact ⟨_, rfl⟩
  have s2 := (C82_session v2 (by
    intro x hx
    simp only [List.nil_append, List.mem_singleton] at hx
    subst hx
    exact P1)).2.2.1 rfl
  generalize hp2 : (JsPage.received measure _ _ _ _).1 = p2 at v2 s2
  have hres : p2.status = .hasResults := s2.1.2 ⟨_, _, _, rfl⟩
  obtain ⟨p3, h3⟩ : ∃ p3, p2.event measure upper (.animation "sums".toList .next) = some p3 := by
    unfold JsPage.event
    simp only
    rw [if_pos ⟨hres, trivial⟩]
    split <;> exact ⟨_, rfl⟩
  have v3 := Visit.animation _ _ _ _ _ _ v2 h3
  have hl3 : p3.status ≠ .loading := by
    intro h
    have := ((C82_session v3 (by
      intro x hx
      simp only [List.nil_append, List.mem_singleton] at hx
      subst hx
      exact P1)).2.1.1 h)
    exact this rfl
  have v4 := Visit.submit _ _ _ _ (.many ["sums".toList, "voting".toList]) v3
    (by unfold JsPage.event; simp only; rw [if_neg hl3])
  obtain ⟨p5, h5⟩ : ∃ p5, ({ p3 with
      status := .loading
      error := none
      waiting := p3.waiting ++ [.many ["sums".toList, "voting".toList]] } : JsPage).event measure upper (.failure 0 none) = some p5 := by
    unfold JsPage.event
    simp only
    split
    · rename_i h
      simp at h
    · exact ⟨_, rfl⟩
  have v5 := Visit.failure _ _ _ p5 (.many ["sums".toList, "voting".toList]) 0 none v4 rfl h5
  refine ⟨p5, v5, ?_⟩
  have hp : ∀ x ∈ [((.many ["sums".toList] : Selection), Outcome.ok [("sums".toList, demoOut)] []),
      (.many ["sums".toList, "voting".toList], .failed none)], ProperAnswer x.1 x.2 := by
    intro x hx
    simp only [List.mem_cons, List.not_mem_nil, or_false] at hx
    rcases hx with rfl | rfl
    · exact P1
    · trivial
  obtain ⟨-, -, a3, -, -, -, a7, -⟩ := C82_session v5 hp
  obtain ⟨b1, b2⟩ := a3 rfl
  refine ⟨?_, (b2 _).2 ⟨_, _, rfl, rfl⟩, ?_, ?_⟩
  · intro h
    obtain ⟨_, _, _, e⟩ := b1.1 h
    cases e
  · obtain ⟨o, e, hpr⟩ := a7 "sums".toList [("sums".toList, demoOut)] [] rfl
    cases e
    exact hpr
  · intro k
    have := ((C82_canvases v5 hp "sums".toList).1 demoOut _ rfl (C58_round_trip demoEntities 100 50) k).1
    rw [this]
    norm_num

/-- The user clicks on "Trust score" twice. -/
example : (([(.trust, .trust), (.belief, .belief), (.trust, .trust)] : List (ResultTable × ResultCol)).foldl
    (fun s c => s.sort c.1 c.2) ({} : SortState)).ascending .trust = true := by
  refine (C82_sorting _ ?_ .trust).2.1.2 (by decide)
  intro c hc
  simp only [List.mem_cons, List.not_mem_nil, or_false] at hc
  rcases hc with rfl | rfl | rfl
  exacts [.inr rfl, .inr rfl, .inr rfl]

/-- A difference of 1000 is not shown. -/
example : formatDiff demoJsEnv (some (demoJsEnv.number7 1000)) = "(-NaN)".toList :=
  (C82_differences demoJsEnv_ok 1000).2 (by norm_num)

end

end TD
