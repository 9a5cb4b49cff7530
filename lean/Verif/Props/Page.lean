import Verif.Spec.Page
import Verif.Props.Canvas
/-!
# C82: the page with the results
-/

namespace TD
open Spec

theorem dict_cons_self {κ α : Type} [DecidableEq κ] (k : κ) (v : α) (d : Dict κ α) :
    Dict.get? ((k, v) :: d) k = some v :=
  List.lookup_cons_self

theorem dict_cons_ne {κ α : Type} [DecidableEq κ] {k l : κ} (h : l ≠ k) {v : α} {d : Dict κ α} :
    Dict.get? ((k, v) :: d) l = Dict.get? d l := by
  unfold Dict.get?
  rw [List.lookup_cons, beq_false_of_ne h]

theorem dict_nil {κ α : Type} [DecidableEq κ] (k : κ) : Dict.get? ([] : Dict κ α) k = none := rfl

/-! ### The session -/

theorem lastAnswer_ok (h : List (Selection × Outcome)) (sel : Selection) (data : List (Text × JsOut)) (ms : List Text) :
    lastAnswer (h ++ [(sel, .ok data ms)]) = some (sel, data, ms) := by
  induction h with
  | nil => rfl
  | cons x h ih => obtain ⟨s, o⟩ := x; simp only [List.cons_append, lastAnswer, ih]

theorem lastAnswer_failed (h : List (Selection × Outcome)) (sel : Selection) (m : Option Text) :
    lastAnswer (h ++ [(sel, .failed m)]) = lastAnswer h := by
  induction h with
  | nil => rfl
  | cons x h ih => obtain ⟨s, o⟩ := x; simp only [List.cons_append, lastAnswer, ih]

theorem lastOutput_ok (label : Text) (h : List (Selection × Outcome)) (sel : Selection) (data : List (Text × JsOut))
    (ms : List Text) : lastOutput label (h ++ [(sel, .ok data ms)]) = (Dict.get? data label).or (lastOutput label h) := by
  induction h with
  | nil => simp [lastOutput]
  | cons x h ih =>
    obtain ⟨s, o⟩ := x
    simp only [List.cons_append, lastOutput, ih]
    cases Dict.get? data label with
    | none => simp
    | some o => simp

theorem lastOutput_failed (label : Text) (h : List (Selection × Outcome)) (sel : Selection) (m : Option Text) :
    lastOutput label (h ++ [(sel, .failed m)]) = lastOutput label h := by
  induction h with
  | nil => rfl
  | cons x h ih => obtain ⟨s, o⟩ := x; simp only [List.cons_append, lastOutput, ih]

theorem lastAnimation_ok (label : Text) (h : List (Selection × Outcome)) (sel : Selection) (data : List (Text × JsOut))
    (ms : List Text) : lastAnimation label (h ++ [(sel, .ok data ms)]) =
      ((Dict.get? data label).bind JsOut.animation).or (lastAnimation label h) := by
  induction h with
  | nil => simp [lastAnimation]
  | cons x h ih =>
    obtain ⟨s, o⟩ := x
    simp only [List.cons_append, lastAnimation, ih]
    cases (Dict.get? data label).bind JsOut.animation with
    | none => simp
    | some o => simp

theorem lastAnimation_failed (label : Text) (h : List (Selection × Outcome)) (sel : Selection) (m : Option Text) :
    lastAnimation label (h ++ [(sel, .failed m)]) = lastAnimation label h := by
  induction h with
  | nil => rfl
  | cons x h ih => obtain ⟨s, o⟩ := x; simp only [List.cons_append, lastAnimation, ih]

/-- An animator with a loaded animation, and what its canvas shows. -/
def Playing (measure : ℝ → Text → ℝ) (a : JsAnimator) (calls : List CanvasCall) : Option Json → Prop
  | none => a.frames = none
  | some doc => ∃ docs fps fs, ∃ i : Nat, ∃ hi : i < fs.length, readAnimation doc = some (fps, fs) ∧
      docs.mapM readDoc = some fs ∧ (∀ f ∈ fs, ∀ e ∈ f.1, Drawable e) ∧ a.frames = some docs ∧ a.currentFrame = i ∧
      ∀ k : Canvas, CanvasShows measure (k.after calls) fs[i]

/-- The graph of an output is shown. -/
def Graphed (measure : ℝ → Text → ℝ) (calls : List CanvasCall) (o : JsOut) : Prop :=
  ∀ f, readDoc o.graph = some f → ∀ k : Canvas, CanvasShows measure (k.after calls) f

/-- The parts of the page that drawing leaves as they are. -/
def SameRest (p p' : JsPage) : Prop :=
  p'.status = p.status ∧ p'.shown = p.shown ∧ p'.messages = p.messages ∧ p'.previous = p.previous ∧
  p'.error = p.error ∧ p'.waiting = p.waiting

theorem loadAnimation_ok (measure : ℝ → Text → ℝ) (p : JsPage) (alg : Text) {o : JsOut} (ho : ProperOut o) :
    ∃ p', p.loadAnimation measure alg o.animation = (p', none) ∧ SameRest p p' ∧ p'.results = p.results ∧
      p'.graphCalls = p.graphCalls ∧
      (∀ label, label ≠ alg ∨ o.animation = none →
        p'.animators label = p.animators label ∧ p'.animationCalls label = p.animationCalls label) ∧
      (o.animation ≠ none → Playing measure (p'.animators alg) (p'.animationCalls alg) o.animation) := by
  cases ha : o.animation with
  | none => exact ⟨p, rfl, ⟨rfl, rfl, rfl, rfl, rfl, rfl⟩, rfl, rfl, fun _ _ => ⟨rfl, rfl⟩, fun h => absurd rfl h⟩
  | some doc =>
    obtain ⟨fps, fs, h1, h2, h3⟩ := ho.animation doc ha
    have hlen : 0 < fs.length := List.length_pos_iff.2 h2
    obtain ⟨docs, calls, hr, hop, hs⟩ := load_shows measure h1 hlen h3 (p.animators alg)
    refine ⟨p.setAnimator alg ⟨some docs, 0⟩ calls, ?_, ⟨rfl, rfl, rfl, rfl, rfl, rfl⟩, rfl, rfl, ?_, fun _ => ?_⟩
    · unfold JsPage.loadAnimation
      simp only [hop]
    · intro label hl
      rcases hl with hl | hl
      · simp only [JsPage.setAnimator, Function.update_of_ne hl, and_self]
      · cases hl
    · refine ⟨docs, fps, fs, 0, hlen, h1, hr, h3, ?_, ?_, fun k => ?_⟩
      · simp only [JsPage.setAnimator, Function.update_self]
      · simp only [JsPage.setAnimator, Function.update_self]; rfl
      · simp only [JsPage.setAnimator, Function.update_self, canvas_append]
        exact hs _

theorem showAll_ok (measure : ℝ → Text → ℝ) (data : List (Text × JsOut)) (hn : (data.map Prod.fst).Nodup)
    (hp : ∀ x ∈ data, ProperOut x.2) (p : JsPage) :
    ∃ p', p.showAll measure data = (p', none) ∧ SameRest p p' ∧
      p'.results = p.results.map (fun l => l.map fun x => match Dict.get? data x.1 with
        | some o => (x.1, o.ready)
        | none => x) ∧
      (∀ label, Dict.get? data label = none → p'.graphCalls label = p.graphCalls label) ∧
      (∀ label o, Dict.get? data label = some o → Graphed measure (p'.graphCalls label) o) ∧
      (∀ label, (Dict.get? data label).bind JsOut.animation = none →
        p'.animators label = p.animators label ∧ p'.animationCalls label = p.animationCalls label) ∧
      (∀ label doc, (Dict.get? data label).bind JsOut.animation = some doc →
        Playing measure (p'.animators label) (p'.animationCalls label) (some doc)) := by
  induction data generalizing p with
  | nil =>
    refine ⟨p, rfl, ⟨rfl, rfl, rfl, rfl, rfl, rfl⟩, ?_, fun _ _ => rfl, nofun, fun _ _ => ⟨rfl, rfl⟩, nofun⟩
    cases p.results <;> simp [dict_nil]
  | cons x rest ih =>
    obtain ⟨alg, o⟩ := x
    have ho := hp (alg, o) (by simp)
    obtain ⟨f, hf, hd⟩ := ho.graph
    obtain ⟨calls, hc, hs⟩ := C81_document measure hf hd
    rw [List.map_cons, List.nodup_cons] at hn
    have hnone : Dict.get? rest alg = none := by
      cases h : Dict.get? rest alg with
      | none => rfl
      | some o' => exact absurd (List.mem_map_of_mem (f := Prod.fst) (mem_of_lookup_some h)) hn.1
    obtain ⟨p1, e1, r1, res1, g1, n1, a1⟩ := loadAnimation_ok measure (p.drawGraph alg calls) alg ho
    obtain ⟨p', e2, r2, res2, g2, g2', n2, a2⟩ := ih hn.2 (fun x hx => hp x (by simp [hx])) (p1.setEntry alg o.ready)
    refine ⟨p', ?_, ?_, ?_, ?_, ?_, ?_, ?_⟩
    · unfold JsPage.showAll
      simp only [hc, e1, e2]
    · obtain ⟨q1, q2, q3, q4, q5, q6⟩ := r1
      obtain ⟨s1, s2, s3, s4, s5, s6⟩ := r2
      exact ⟨s1.trans q1, s2.trans q2, s3.trans q3, s4.trans q4, s5.trans q5, s6.trans q6⟩
    · rw [res2]
      simp only [JsPage.setEntry, res1, JsPage.drawGraph, Option.map_map]
      congr 1
      funext l
      simp only [Function.comp, List.map_map]
      refine List.map_congr_left fun x _ => ?_
      by_cases hx : x.1 = alg
      · simp only [Function.comp, hx, if_true, hnone, dict_cons_self]
      · have : Dict.get? ((alg, o) :: rest) x.1 = Dict.get? rest x.1 := by
          rw [dict_cons_ne hx]
        simp only [Function.comp, hx, if_false, this]
    · intro label hl
      have hne : label ≠ alg := by
        rintro rfl; rw [dict_cons_self] at hl; cases hl
      rw [dict_cons_ne hne] at hl
      rw [g2 label hl]
      simp only [JsPage.setEntry, g1, JsPage.drawGraph, Function.update_of_ne hne]
    · intro label o' hl
      by_cases hne : label = alg
      · subst hne
        rw [dict_cons_self] at hl
        cases hl
        intro f' hf' k
        rw [hf] at hf'
        cases hf'
        rw [g2 label hnone]
        simp only [JsPage.setEntry, g1, JsPage.drawGraph, Function.update_self, canvas_append]
        exact hs _
      · rw [dict_cons_ne hne] at hl
        exact g2' label o' hl
    · intro label hl
      by_cases hne : label = alg
      · subst hne
        rw [dict_cons_self] at hl
        have := n2 label (by rw [hnone]; rfl)
        exact ⟨this.1.trans (n1 label (.inr hl)).1, this.2.trans (n1 label (.inr hl)).2⟩
      · rw [dict_cons_ne hne] at hl
        have := n2 label hl
        exact ⟨this.1.trans (n1 label (.inl hne)).1, this.2.trans (n1 label (.inl hne)).2⟩
    · intro label doc hl
      by_cases hne : label = alg
      · subst hne
        rw [dict_cons_self] at hl
        have hl : o.animation = some doc := hl
        have h := a1 (by rw [hl]; nofun)
        have := n2 label (by rw [hnone]; rfl)
        rw [← hl]
        rw [this.1, this.2]
        exact h
      · rw [dict_cons_ne hne] at hl
        exact a2 label doc hl

/-- The previous results after an answer. -/
def keptOf (sel : Selection) (data : List (Text × JsOut)) : Option JsScores :=
  match sel with
  | .many [_] => data.head?.map fun x => x.2.scores
  | _ => none

theorem nextKept_ok {sel : Selection} {data : List (Text × JsOut)} {ms : List Text}
    (h : ProperAnswer sel (.ok data ms)) : nextKept sel data = .ok (keptOf sel data) := by
  unfold nextKept keptOf
  split
  · rename_i label
    obtain ⟨o, ho⟩ := h.2.2.2 label rfl
    subst ho
    rw [dict_cons_self]
    rfl
  · rename_i h1
    split
    · exact absurd rfl (h1 _)
    · rfl

theorem nextShown_mem (shown : Option Text) {labels : List Text} (h : labels ≠ []) :
    ∃ label, nextShown shown labels = some label ∧ label ∈ labels := by
  have hd : ∃ label, labels.head? = some label ∧ label ∈ labels := by
    cases labels with
    | nil => exact absurd rfl h
    | cons a l => exact ⟨a, rfl, by simp⟩
  unfold nextShown
  cases shown with
  | none => exact hd
  | some s =>
    simp only
    split
    · exact ⟨s, rfl, by assumption⟩
    · exact hd

/-- What the error message looks like. -/
def errorText (upper : Char → Char) : Option Text → Text
  | some t => capitalise upper t
  | none => "Unknown error :(".toList

/-- State of the page. -/
structure PageInv (measure : ℝ → Text → ℝ) (upper : Char → Char) (h : List (Selection × Outcome))
    (open' : List Selection) (p : JsPage) : Prop where
  waiting : p.waiting = open'
  one : open'.length ≤ 1
  loading : p.status = .loading ↔ open' ≠ []
  status : open' = [] → match h.getLast? with
    | none => p.status = .empty ∧ p.error = none
    | some (_, .ok _ _) => p.status = .hasResults ∧ p.error = none
    | some (_, .failed m) => p.status = .empty ∧ p.error = some (errorText upper m)
  noError : open' ≠ [] → p.error = none
  results : p.results = (lastAnswer h).map fun x => x.2.1.map fun y => (y.1, y.2.ready)
  messages : p.messages = ((lastAnswer h).map fun x => x.2.2).getD []
  previous : p.previous = (lastAnswer h).bind fun x => keptOf x.1 x.2.1
  shown : ∀ x, lastAnswer h = some x → ∃ label, p.shown = some label ∧ label ∈ x.2.1.map Prod.fst
  graph : ∀ label o, lastOutput label h = some o → Graphed measure (p.graphCalls label) o
  animation : ∀ label, Playing measure (p.animators label) (p.animationCalls label) (lastAnimation label h)

theorem page_inv {measure : ℝ → Text → ℝ} {upper : Char → Char} {h : List (Selection × Outcome)}
    {open' : List Selection} {p : JsPage} (hv : Visit measure upper h open' p)
    (hp : ∀ x ∈ h, ProperAnswer x.1 x.2) : PageInv measure upper h open' p := by
  induction hv with
  | start =>
    exact ⟨rfl, by simp, by simp, fun _ => ⟨rfl, rfl⟩, fun h => absurd rfl h, rfl, rfl, rfl, nofun, nofun, fun _ => rfl⟩
  | submit h open' p p' sel hv he ih =>
    have I := ih hp
    unfold JsPage.event at he
    simp only at he
    split at he
    · cases he
    · rename_i hne
      cases he
      have h0 : open' = [] := by
        by_contra hc
        exact hne (I.loading.2 hc)
      subst h0
      refine ⟨by simp [I.waiting], by simp, by simp, by simp, fun _ => rfl, I.results, I.messages, I.previous, I.shown,
        I.graph, I.animation⟩
  | answer h open' p p' sel i data messages hv hi he ih =>
    have I := ih fun x hx => hp x (by simp [hx])
    have hpr : ProperAnswer sel (.ok data messages) := hp (sel, .ok data messages) (by simp)
    have hopen : open' = [sel] ∧ i = 0 := by
      have h1 := I.one
      match open', h1, hi with
      | [], _, hi => cases hi
      | [s], _, hi =>
        cases i with
        | zero => simp at hi; exact ⟨by rw [hi], rfl⟩
        | succ i => simp at hi
    obtain ⟨rfl, rfl⟩ := hopen
    unfold JsPage.event at he
    simp only [I.waiting, List.getElem?_cons_zero, Option.some.injEq] at he
    unfold JsPage.received at he
    simp only [nextKept_ok hpr] at he
    obtain ⟨q, e1, e2, e3, e4, e5, e6, e7⟩ := showAll_ok measure data hpr.1 hpr.2.2.1
      { p with
        waiting := [sel].eraseIdx 0
        results := some (data.map fun x => (x.1, .received x.2))
        messages := messages
        status := .hasResults
        shown := nextShown p.shown (data.map Prod.fst)
        previous := keptOf sel data }
    rw [e1] at he
    simp only at he
    subst he
    obtain ⟨s1, s2, s3, s4, s5, s6⟩ := e2
    dsimp only at s1 s2 s3 s4 s5 s6 e3 e4 e6
    refine ⟨s6, by simp, by simp [s1], ?_, by simp, ?_, ?_, ?_, ?_, ?_, ?_⟩
    · intro _
      rw [List.getLast?_append]
      exact ⟨s1, s5.trans (I.noError (by simp))⟩
    · rw [e3, lastAnswer_ok]
      simp only [Option.map_some, List.map_map, Option.some.injEq]
      refine List.map_congr_left fun x hx => ?_
      have : Dict.get? data x.1 = some x.2 := lookup_some_of_mem hpr.1 hx
      simp only [Function.comp, this]
    · rw [s3, lastAnswer_ok]; rfl
    · rw [s4, lastAnswer_ok]; rfl
    · intro x hx
      rw [lastAnswer_ok] at hx
      cases hx
      rw [s2]
      exact nextShown_mem _ (by simpa using hpr.2.1)
    · intro label o ho
      rw [lastOutput_ok] at ho
      cases hl : Dict.get? data label with
      | none =>
        rw [hl] at ho
        rw [e4 label hl]
        exact I.graph label o ho
      | some o' =>
        rw [hl] at ho
        cases ho
        exact e5 label o hl
    · intro label
      rw [lastAnimation_ok]
      cases hl : (Dict.get? data label).bind JsOut.animation with
      | none =>
        rw [(e6 label hl).1, (e6 label hl).2]
        exact I.animation label
      | some doc => exact e7 label doc hl
  | failure h open' p p' sel i message hv hi he ih =>
    have I := ih fun x hx => hp x (by simp [hx])
    have hopen : open' = [sel] ∧ i = 0 := by
      have h1 := I.one
      match open', h1, hi with
      | [], _, hi => cases hi
      | [s], _, hi =>
        cases i with
        | zero => simp at hi; exact ⟨by rw [hi], rfl⟩
        | succ i => simp at hi
    obtain ⟨rfl, rfl⟩ := hopen
    unfold JsPage.event at he
    simp only [I.waiting, List.getElem?_cons_zero, Option.some.injEq] at he
    subst he
    refine ⟨rfl, by simp, by simp [JsPage.refused], ?_, by simp, ?_, ?_, ?_, ?_, ?_, ?_⟩
    · intro _
      rw [List.getLast?_append]
      refine ⟨rfl, ?_⟩
      cases message <;> rfl
    · rw [lastAnswer_failed]; exact I.results
    · rw [lastAnswer_failed]; exact I.messages
    · rw [lastAnswer_failed]; exact I.previous
    · rw [lastAnswer_failed]; exact I.shown
    · intro label o; rw [lastOutput_failed]; exact I.graph label o
    · intro label; rw [lastAnimation_failed]; exact I.animation label
  | tab h open' p p' label hv he ih =>
    have I := ih hp
    unfold JsPage.event at he
    simp only at he
    split at he
    · cases he
    · rename_i l hl
      split at he
      · rename_i hc
        cases he
        refine ⟨I.waiting, I.one, I.loading, I.status, I.noError, I.results, I.messages, I.previous, ?_, I.graph,
          I.animation⟩
        intro x hx
        refine ⟨label, rfl, ?_⟩
        have := I.results
        rw [hx, hl] at this
        simp only [Option.map_some, Option.some.injEq] at this
        have hm := hc.2
        rw [this, List.map_map] at hm
        exact hm
      · cases he
  | animation h open' p p' label o hv he ih =>
    have I := ih hp
    unfold JsPage.event at he
    simp only at he
    split at he
    · rename_i hc
      have key : ∀ a calls, (p.animators label).op measure o = .ok (a, calls) →
          Playing measure a (p.animationCalls label ++ calls) (lastAnimation label h) := by
        intro a calls hop
        have hA := I.animation label
        cases hl : lastAnimation label h with
        | none =>
          rw [hl] at hA
          have hA : (p.animators label).frames = none := hA
          cases o with
          | load => exact hc.2.elim
          | previous =>
            simp only [JsAnimator.op, JsAnimator.setFrame, hA, Except.ok.injEq, Prod.mk.injEq] at hop
            rw [← hop.1]; exact hA
          | next =>
            simp only [JsAnimator.op, JsAnimator.setFrame, hA, Except.ok.injEq, Prod.mk.injEq] at hop
            rw [← hop.1]; exact hA
          | slide i =>
            obtain ⟨_, fs, hfs, -⟩ := hc.2
            rw [hA] at hfs; cases hfs
        | some doc =>
          rw [hl] at hA
          obtain ⟨docs, fps, fs, i, hi, h1, h2, h3, h4, h5, h6⟩ := hA
          have ho : UserOp fs.length o := by
            cases o with
            | load => exact hc.2.elim
            | previous => exact .previous
            | next => exact .next
            | slide n =>
              obtain ⟨hn, fs', hfs, hlt⟩ := hc.2
              rw [h4] at hfs
              cases hfs
              obtain ⟨m, rfl⟩ := Int.eq_ofNat_of_zero_le hn
              exact .slide m (by rw [mapM_length h2] at hlt; exact_mod_cast hlt)
          obtain ⟨a', calls', j, hj, g1, g2, g3, g4, -⟩ := user_op measure h2 h3 h4 hi h5 ho
          rw [g1] at hop
          cases hop
          exact ⟨docs, fps, fs, j, hj, h1, h2, h3, g2, g3, fun k => by rw [canvas_append]; exact g4 _⟩
      split at he
      · cases he
        exact I
      · rename_i a calls hop
        cases he
        refine ⟨I.waiting, I.one, I.loading, I.status, I.noError, I.results, I.messages, I.previous, I.shown, I.graph, ?_⟩
        intro label'
        by_cases hne : label' = label
        · subst hne
          simp only [JsPage.setAnimator, Function.update_self]
          exact key a calls hop
        · simp only [JsPage.setAnimator, Function.update_of_ne hne]
          exact I.animation label'
    · cases he

/-- **C82.** Whatever the user does and however the requests end: there is never more than one
request in flight; while there is one the page is loading, afterwards it shows results exactly if
the last request succeeded, and an error otherwise; the results kept are those of the last
successful request, processed completely; the tab shown is one of them; the results to compare
with are those of the last successful request if it was for one algorithm (whatever failed since),
and none otherwise. -/
theorem C82_session {measure : ℝ → Text → ℝ} {upper : Char → Char} {h : List (Selection × Outcome)}
    {open' : List Selection} {p : JsPage} (hv : Visit measure upper h open' p)
    (hp : ∀ x ∈ h, ProperAnswer x.1 x.2) :
    open'.length ≤ 1 ∧ (p.status = .loading ↔ open' ≠ []) ∧
    (open' = [] → (p.status = .hasResults ↔ ∃ sel data ms, h.getLast? = some (sel, .ok data ms)) ∧
      (∀ t, p.error = some t ↔ ∃ sel m, h.getLast? = some (sel, .failed m) ∧ t = match m with
        | some (c :: t) => upper c :: t
        | some [] => []
        | none => "Unknown error :(".toList)) ∧
    p.results = (lastAnswer h).map (fun x => x.2.1.map fun y => (y.1, y.2.ready)) ∧
    p.messages = ((lastAnswer h).map fun x => x.2.2).getD [] ∧
    (∀ x, lastAnswer h = some x → ∃ label, p.shown = some label ∧ label ∈ x.2.1.map Prod.fst) ∧
    (∀ label data ms, lastAnswer h = some (.many [label], data, ms) → ∃ o, data = [(label, o)] ∧
      p.previous = some o.scores) ∧
    ((∀ label data ms, lastAnswer h ≠ some (.many [label], data, ms)) → p.previous = none) := by
  have I := page_inv hv hp
  refine ⟨I.one, I.loading, ?_, I.results, I.messages, I.shown, ?_, ?_⟩
  · intro h0
    have := I.status h0
    cases hl : h.getLast? with
    | none =>
      rw [hl] at this
      exact ⟨⟨fun e => by (rw [this.1] at e; cases e), by rintro ⟨_, _, _, h⟩; cases h⟩,
        fun t => ⟨fun e => by (rw [this.2] at e; cases e), by rintro ⟨_, _, h, _⟩; cases h⟩⟩
    | some x =>
      obtain ⟨sel, o⟩ := x
      rw [hl] at this
      cases o with
      | ok data ms =>
        exact ⟨⟨fun _ => ⟨_, _, _, rfl⟩, fun _ => this.1⟩,
          fun t => ⟨fun e => by (rw [this.2] at e; cases e), by rintro ⟨_, _, h, _⟩; cases h⟩⟩
      | failed m =>
        refine ⟨⟨fun e => by (rw [this.1] at e; cases e), by rintro ⟨_, _, _, h⟩; cases h⟩, fun t => ?_⟩
        rw [this.2]
        constructor
        · intro e
          cases e
          refine ⟨_, m, rfl, ?_⟩
          match m with
          | none => rfl
          | some [] => rfl
          | some (c :: t) => rfl
        · rintro ⟨sel', m', e, rfl⟩
          cases e
          match m with
          | none => rfl
          | some [] => rfl
          | some (c :: t) => rfl
  · intro label data ms hl
    have hmem : ∀ (h : List (Selection × Outcome)) x, lastAnswer h = some x → (x.1, Outcome.ok x.2.1 x.2.2) ∈ h := by
      intro h
      induction h with
      | nil => nofun
      | cons y h ih =>
        obtain ⟨s, o⟩ := y
        intro x hx
        simp only [lastAnswer] at hx
        cases hh : lastAnswer h with
        | some z => rw [hh] at hx; cases hx; exact List.mem_cons_of_mem _ (ih _ hh)
        | none =>
          rw [hh] at hx
          cases o with
          | ok d m => simp only [Option.some.injEq] at hx; subst hx; exact List.mem_cons_self
          | failed m => cases hx
    obtain ⟨o, ho⟩ := (hp _ (hmem h _ hl)).2.2.2 label rfl
    have ho : data = [(label, o)] := ho
    subst ho
    refine ⟨o, rfl, ?_⟩
    rw [I.previous, hl]
    rfl
  · intro hn
    rw [I.previous]
    cases hl : lastAnswer h with
    | none => rfl
    | some x =>
      obtain ⟨sel, data, ms⟩ := x
      show keptOf sel data = none
      unfold keptOf
      split
      · exact absurd hl (hn _ _ _)
      · rfl

/-- **C82.** The canvases: for each algorithm the graph shown is that of the last answer with an
output of this algorithm, the animation is the last one received for it, at an existing frame. -/
theorem C82_canvases {measure : ℝ → Text → ℝ} {upper : Char → Char} {h : List (Selection × Outcome)}
    {open' : List Selection} {p : JsPage} (hv : Visit measure upper h open' p)
    (hp : ∀ x ∈ h, ProperAnswer x.1 x.2) (label : Text) :
    (∀ o f, lastOutput label h = some o → readDoc o.graph = some f →
      ∀ k : Canvas, CanvasShows measure (k.after (p.graphCalls label)) f) ∧
    ∀ doc fps fs, lastAnimation label h = some doc → readAnimation doc = some (fps, fs) →
      ∃ i : Nat, ∃ hi : i < fs.length, (p.animators label).currentFrame = i ∧
        ∀ k : Canvas, CanvasShows measure (k.after (p.animationCalls label)) fs[i] := by
  have I := page_inv hv hp
  refine ⟨fun o f ho hf => I.graph label o ho f hf, fun doc fps fs hd hr => ?_⟩
  have := I.animation label
  rw [hd] at this
  obtain ⟨docs, fps', fs', i, hi, h1, h2, h3, h4, h5, h6⟩ := this
  rw [hr] at h1
  cases h1
  exact ⟨i, hi, h5, h6⟩

/-- **C82.** An animation without frames breaks the page: the tables of its algorithm (and of
those after it) cannot be shown, although the page shows results. -/
theorem C82_no_frames (env : JsEnv) (s : SortState) (measure : ℝ → Text → ℝ) (p : JsPage) (label : Text) {o : JsOut}
    (hg : ∃ f, readDoc o.graph = some f ∧ ∀ e ∈ f.1, Drawable e) {doc : Json} {fps : ℝ}
    (ha : o.animation = some doc) (hd : readAnimation doc = some (fps, [])) (rest : List (Text × JsOut))
    (messages : List Text) (sel : Selection) (hsel : sel = .many [label] ∨ ∀ l, sel ≠ .many [l]) :
    ∃ p' l, p.received measure sel ((label, o) :: rest) messages = (p', some .typeError) ∧
      p'.status = .hasResults ∧ p'.results = some l ∧ (p'.animators label).frames = some [] ∧
      l.map Prod.fst = label :: rest.map Prod.fst ∧
      ∀ x ∈ l, trustTable env s x.2 = .error .typeError ∧ beliefTable env s x.2 = .error .typeError := by
  obtain ⟨f, hf, hdr⟩ := hg
  obtain ⟨calls, hc, -⟩ := C81_document measure hf hdr
  have hk : ∃ pr, nextKept sel ((label, o) :: rest) = .ok pr := by
    rcases hsel with rfl | hsel
    · refine ⟨some o.scores, ?_⟩
      unfold nextKept
      simp only [dict_cons_self]
    · refine ⟨none, ?_⟩
      unfold nextKept
      split
      · exact absurd rfl (hsel _)
      · rfl
  obtain ⟨pr, hk⟩ := hk
  unfold JsPage.received
  simp only [hk]
  unfold JsPage.showAll
  simp only [hc, ha, JsPage.loadAnimation, C81_no_frames measure _ hd]
  refine ⟨_, _, rfl, rfl, rfl, ?_, ?_, ?_⟩
  · obtain ⟨docs, e, hr⟩ := animation_docs hd
    have : docs = [] := List.length_eq_zero_iff.1 (mapM_length hr)
    subst this
    simp only [JsPage.setAnimator, Function.update_self, failedAnimator, e]
  · simp [Function.comp_def]
  · intro x hx
    obtain ⟨y, -, rfl⟩ := List.mem_map.1 hx
    exact ⟨rfl, rfl⟩

/-! ### Sorting -/

theorem clicksOn_append (t : ResultTable) (clicks : List (ResultTable × ResultCol)) (x : ResultTable × ResultCol) :
    clicksOn t (clicks ++ [x]) = if x.1 = t then x.2 :: clicksOn t clicks else clicksOn t clicks := by
  unfold clicksOn
  rw [List.filter_append]
  by_cases h : x.1 = t
  · simp [h]
  · simp [h]

/-- **C82.** Sorting: a table is sorted by the column that was clicked last (at first by source
or value), in ascending order if it was clicked an even number of times in a row (at first: not at
all), and the icons say so, once the table has been clicked. -/
theorem C82_sorting (clicks : List (ResultTable × ResultCol)) (hc : ∀ c ∈ clicks, HasCol c.1 c.2) (t : ResultTable) :
    (clicks.foldl (fun s c => s.sort c.1 c.2) ({} : SortState)).col t = (clicksOn t clicks).head?.getD (firstCol t) ∧
    ((clicks.foldl (fun s c => s.sort c.1 c.2) ({} : SortState)).ascending t = true ↔
      Even (trailing ((clicksOn t clicks).head?.getD (firstCol t)) (clicksOn t clicks))) ∧
    ∀ c, HasCol t c → (clicks.foldl (fun s c => s.sort c.1 c.2) ({} : SortState)).icon c =
      if clicksOn t clicks = [] ∨ c ≠ (clicksOn t clicks).head?.getD (firstCol t) then .unsorted
      else if (clicks.foldl (fun s c => s.sort c.1 c.2) ({} : SortState)).ascending t then .ascending else .descending := by
  have hdis : ∀ t t' c, HasCol t c → HasCol t' c → t = t' := by
    intro t t' c h h'
    cases t <;> cases t' <;> simp only [HasCol] at h h' <;> rcases h with rfl | rfl <;> simp_all
  have hfirst : ∀ t, HasCol t (firstCol t) := by
    intro t; cases t
    · exact .inl rfl
    · exact .inl rfl
  have hcol : ∀ (clicks : List (ResultTable × ResultCol)) (hc : ∀ c ∈ clicks, HasCol c.1 c.2) (t : ResultTable),
      HasCol t ((clicksOn t clicks).head?.getD (firstCol t)) := by
    intro clicks hc t
    cases h : (clicksOn t clicks).head? with
    | none => exact hfirst t
    | some c =>
      have hm := List.mem_of_mem_head? (Option.mem_def.2 h)
      unfold clicksOn at hm
      obtain ⟨x, hx, rfl⟩ := List.mem_map.1 hm
      rw [List.mem_reverse, List.mem_filter, decide_eq_true_iff] at hx
      exact hx.2 ▸ hc x hx.1
  induction clicks using List.reverseRecOn generalizing t with
  | nil =>
    refine ⟨by cases t <;> rfl, by simp [clicksOn, trailing], fun c _ => by simp [clicksOn]⟩
  | append_singleton clicks x ih =>
    have hc' : ∀ c ∈ clicks, HasCol c.1 c.2 := fun c h => hc c (by simp [h])
    have hx : HasCol x.1 x.2 := hc x (by simp)
    have ih := ih hc'
    obtain ⟨t0, c0⟩ := x
    dsimp only at hx
    rw [List.foldl_append, List.foldl_cons, List.foldl_nil, clicksOn_append]
    set s := clicks.foldl (fun s c => s.sort c.1 c.2) ({} : SortState) with hs
    dsimp only
    by_cases ht : t0 = t
    · subst ht
      obtain ⟨i1, i2, i3⟩ := ih t0
      rw [if_pos rfl]
      simp only [List.head?_cons, Option.getD_some]
      by_cases hcc : s.col t0 = c0
      · -- same column again
        have hsort : s.sort t0 c0 = { s with
            ascending := Function.update s.ascending t0 (!s.ascending t0)
            icon := Function.update s.icon c0 (if (!s.ascending t0) then .ascending else .descending) } := by
          unfold SortState.sort
          rw [if_neg (not_not.2 hcc)]
        rw [hsort]
        refine ⟨hcc, ?_, ?_⟩
        · simp only [Function.update_self]
          have : trailing c0 (c0 :: clicksOn t0 clicks) = trailing c0 (clicksOn t0 clicks) + 1 := by
            simp [trailing]
          rw [this, Nat.even_add_one, Bool.not_eq_true', ← Bool.not_eq_true, i2]
          rw [i1] at hcc
          rw [hcc]
        · intro c hcT
          simp only [Function.update_self, reduceCtorEq, false_or]
          by_cases hce : c = c0
          · subst hce
            simp
          · rw [Function.update_of_ne hce, if_pos hce, i3 c hcT, if_pos]
            right
            rw [← i1, hcc]
            exact hce
      · have hsort : s.sort t0 c0 =
            { col := Function.update s.col t0 c0
              ascending := Function.update s.ascending t0 false
              icon := Function.update (Function.update s.icon (s.col t0) .unsorted) c0 .descending } := by
          unfold SortState.sort
          rw [if_pos hcc]
        rw [hsort]
        refine ⟨by simp, ?_, ?_⟩
        · simp only [Function.update_self]
          have : trailing c0 (c0 :: clicksOn t0 clicks) = 1 := by
            rw [i1] at hcc
            cases hcl : clicksOn t0 clicks with
            | nil => simp [trailing]
            | cons d ds =>
              rw [hcl] at hcc
              simp only [List.head?_cons, Option.getD_some] at hcc
              simp [trailing, hcc]
          rw [this]
          decide
        · intro c hcT
          simp only [Function.update_self, reduceCtorEq, false_or]
          by_cases hce : c = c0
          · subst hce
            simp
          · rw [Function.update_of_ne hce, if_pos hce]
            by_cases hce' : c = s.col t0
            · rw [hce', Function.update_self]
            · rw [Function.update_of_ne hce', i3 c hcT, if_pos]
              right
              rw [← i1]
              exact hce'
    · obtain ⟨i1, i2, i3⟩ := ih t
      rw [if_neg ht]
      have e1 : (s.sort t0 c0).col t = s.col t := by
        unfold SortState.sort
        split
        · exact Function.update_of_ne (Ne.symm ht) _ _
        · rfl
      have e2 : (s.sort t0 c0).ascending t = s.ascending t := by
        unfold SortState.sort
        split
        · exact Function.update_of_ne (Ne.symm ht) _ _
        · exact Function.update_of_ne (Ne.symm ht) _ _
      have hcol0 : HasCol t0 (s.col t0) := by
        rw [(ih t0).1]
        exact hcol clicks hc' t0
      have e3 : ∀ c, HasCol t c → (s.sort t0 c0).icon c = s.icon c := by
        intro c hcT
        have n1 : c ≠ c0 := by
          rintro rfl; exact ht (hdis _ _ _ hx hcT)
        have n2 : c ≠ s.col t0 := by
          rintro rfl; exact ht (hdis _ _ _ hcol0 hcT)
        unfold SortState.sort
        split
        · simp only [Function.update_of_ne n1, Function.update_of_ne n2]
        · simp only [Function.update_of_ne n1]
      refine ⟨e1.trans i1, by rw [e2]; exact i2, fun c hcT => ?_⟩
      rw [e3 c hcT, e2]
      exact i3 c hcT

end TD
