import Verif.Spec.Backends
import Verif.Props.Graph
import Verif.Props.Runs
/-!
# Backends and animations (C57, C58, C59, C62)
-/

namespace TD
open Spec

/-! ### C58: JSON -/

theorem mapM_some {β γ : Type} {L : List β} {F : β → Option γ} {G : β → γ} (h : ∀ x ∈ L, F x = some (G x)) :
    L.mapM F = some (L.map G) := by
  induction L with
  | nil => rfl
  | cons a L ih =>
    rw [List.mapM_cons, h a (by simp), ih fun x hx => h x (by simp [hx])]
    rfl

theorem asNums_nums (l : List ℝ) : asNums (Json.nums l) = some l := by
  unfold asNums Json.nums asArr
  show (l.map Json.num).mapM asNum = some l
  rw [List.mapM_map]
  have := mapM_some (L := l) (F := asNum ∘ Json.num) (G := id) (fun _ _ => rfl)
  simpa using this

theorem readLabel_toDict (l : Label) : readLabel l.toDict = some l := by
  have h1 : field l.toDict "type" = some (.str "label".toList) := rfl
  have h2 : field l.toDict "x" = some (.num l.x) := rfl
  have h3 : field l.toDict "y" = some (.num l.y) := rfl
  have h4 : field l.toDict "colour" = some (.nums l.colour) := rfl
  have h5 : field l.toDict "text" = some (.str l.text) := rfl
  have h6 : field l.toDict "size" = some (.num l.size) := rfl
  have h7 : field l.toDict "overflow_background" = some (.nums l.overflowBackground) := rfl
  unfold readLabel numField
  simp only [h1, h2, h3, h4, h5, h6, h7, bind, Option.bind, asStr, asNum, asNums_nums, ne_eq,
    not_true_eq_false, if_false, pure]

theorem readEntity_toDict (e : Entity) : readEntity e.toDict = some e := by
  have n1 : ("circle".toList = "rectangle".toList) = False := by simp
  have n2 : ("line".toList = "rectangle".toList) = False := by simp
  have n3 : ("line".toList = "circle".toList) = False := by simp
  cases e with
  | rect x y c w h =>
    set j := (Entity.rect x y c w h).toDict with hj
    have h1 : field j "type" = some (.str "rectangle".toList) := rfl
    have h2 : field j "x" = some (.num x) := rfl
    have h3 : field j "y" = some (.num y) := rfl
    have h4 : field j "colour" = some (.nums c) := rfl
    have h5 : field j "width" = some (.num w) := rfl
    have h6 : field j "height" = some (.num h) := rfl
    unfold readEntity numField
    simp only [h1, h2, h3, h4, h5, h6, bind, Option.bind, asStr, asNum, asNums_nums, if_true, pure]
  | circle x y c rad label =>
    set j := (Entity.circle x y c rad label).toDict with hj
    have h1 : field j "type" = some (.str "circle".toList) := rfl
    have h2 : field j "x" = some (.num x) := rfl
    have h3 : field j "y" = some (.num y) := rfl
    have h4 : field j "colour" = some (.nums c) := rfl
    have h5 : field j "radius" = some (.num rad) := rfl
    have h6 : ∃ k, field j "label" = some k ∧ readLabel? k = some label := by
      refine ⟨_, rfl, ?_⟩
      cases label with
      | none => rfl
      | some l =>
        show (readLabel l.toDict).map some = _
        rw [readLabel_toDict]; rfl
    obtain ⟨k, h6, h7⟩ := h6
    unfold readEntity numField
    simp only [h1, h2, h3, h4, h5, h6, h7, bind, Option.bind, asStr, asNum, asNums_nums, if_true, pure,
      n1, if_false]
  | line x y c ex ey w dashed =>
    set j := (Entity.line x y c ex ey w dashed).toDict with hj
    have h1 : field j "type" = some (.str "line".toList) := rfl
    have h2 : field j "x" = some (.num x) := rfl
    have h3 : field j "y" = some (.num y) := rfl
    have h4 : field j "colour" = some (.nums c) := rfl
    have h5 : field j "end_x" = some (.num ex) := rfl
    have h6 : field j "end_y" = some (.num ey) := rfl
    have h7 : field j "width" = some (.num w) := rfl
    have h8 : field j "dashed" = some (.bool dashed) := rfl
    unfold readEntity numField
    simp only [h1, h2, h3, h4, h5, h6, h7, h8, bind, Option.bind, asStr, asNum, asBool, asNums_nums,
      if_true, pure, n2, n3, if_false]

/-- **C58**: from the document written by the JSON backend, the entities can be read back, in
order and with all attributes, and so can the size of the image. -/
theorem C58_round_trip (es : List Entity) (W : ℝ) (H : Int) :
    readDoc (jsonDoc (es, W, H)) = some (es, W, (H : ℝ)) := by
  have h : (es.map Entity.toDict).mapM readEntity = some es := by
    rw [List.mapM_map]
    have := mapM_some (L := es) (F := readEntity ∘ Entity.toDict) (G := id)
      (fun e _ => readEntity_toDict e)
    simpa using this
  have h1 : field (jsonDoc (es, W, H)) "entities" = some (.arr (es.map Entity.toDict)) := rfl
  have h2 : field (jsonDoc (es, W, H)) "width" = some (.num W) := rfl
  have h3 : field (jsonDoc (es, W, H)) "height" = some (.num (H : ℝ)) := rfl
  unfold readDoc numField
  simp only [h1, h2, h3, bind, Option.bind, asArr, asNum, pure, h]

/-- Different pictures give different documents. -/
theorem C58_injective (f g : Frame) (h : jsonDoc f = jsonDoc g) : f = g := by
  obtain ⟨es, W, H⟩ := f
  obtain ⟨es', W', H'⟩ := g
  have := (C58_round_trip es W H).symm.trans (h ▸ C58_round_trip es' W' H')
  simpa using this

/-! ### C59: labels -/

theorem labelLhs_eq (W x w : ℝ) : labelLhs W x w = labelLeft W x w := by
  unfold labelLhs labelLeft
  split
  · rename_i h
    exact max_eq_left (le_trans (min_le_left _ _) (by linarith))
  · rename_i h
    split
    · rename_i h2
      exact max_eq_left (le_trans (min_le_right _ _) h2.le)
    · rename_i h2
      split
      · rename_i h3
        rw [min_eq_left (by linarith), max_eq_right (by linarith)]
      · rename_i h3
        rw [min_eq_right (by linarith), max_eq_right (by linarith)]

/-- **C59**: a label that is not wider than the image lies completely inside; it is centred
on its position whenever that is possible inside the image.  A wider label starts at the
left edge. -/
theorem C59_label (W x w : ℝ) :
    0 ≤ labelLhs W x w ∧ (0 ≤ W → w ≤ W → labelLhs W x w + w ≤ W) ∧
    (0 ≤ x - w / 2 → x + w / 2 ≤ W → labelLhs W x w = x - w / 2) ∧
    (W ≤ w → labelLhs W x w = 0) := by
  unfold labelLhs
  refine ⟨le_max_left _ _, ?_, ?_, ?_⟩
  · intro hW hw
    rcases max_cases 0 (min (W - w) (x - w / 2)) with h | h
    · rw [h.1]; linarith
    · rw [h.1]
      have := min_le_left (W - w) (x - w / 2)
      linarith
  · intro h1 h2
    rw [min_eq_right (by linarith), max_eq_right h1]
  · intro h
    exact max_eq_left (le_trans (min_le_left _ _) (by linarith))

/-! ### C62: PNG -/

/-- Context after calls. -/
noncomputable def Spec.Ctx.after (k : Ctx) : List Cairo → Ctx
  | [] => k
  | c :: cs => Ctx.after (k.call c).1 cs

theorem paints_append (k : Ctx) (a b : List Cairo) :
    k.paints (a ++ b) = k.paints a ++ (k.after a).paints b := by
  induction a generalizing k with
  | nil => rfl
  | cons c a ih => simp [Ctx.paints, Ctx.after, ih]

theorem after_append (k : Ctx) (a b : List Cairo) : k.after (a ++ b) = (k.after a).after b := by
  induction a generalizing k with
  | nil => rfl
  | cons c a ih => simp [Ctx.after, ih]

theorem setSource_ok {c : Colour} (h : ColourOk c) : setSource c = .ok [.source c] := if_pos h

theorem opposite_ok {c : Colour} (h : ColourOk c) : ColourOk (opposite c) := by
  rcases h with h | h <;> exact .inl (by simp [opposite, h])

theorem label_draws (ext : ℝ → Text → Extents) (W rad : ℝ) {l : Label} (h1 : ColourOk l.colour)
    (h2 : ColourOk l.overflowBackground) :
    ∃ cs, drawLabel ext l (2 * rad) W = .ok cs ∧ ∀ k : Ctx, k.path = [] →
      k.paints cs = labelPaint ext W rad l ∧ (k.after cs).path = [] := by
  unfold drawLabel labelPaint
  simp only [labelLhs_eq]
  by_cases hw : 2 * rad < (ext l.size l.text).width
  · simp only [gt_iff_lt, hw, if_true]
    have hop := opposite_ok h2
    have key : ∃ x y z : ℝ, opposite l.overflowBackground = [1 - x, 1 - y, 1 - z] ∧
        rgb l.overflowBackground = .ok (x, y, z) := by
      rcases h2 with h2 | h2
      · obtain ⟨x, y, z, e⟩ := List.length_eq_three.1 h2
        rw [e]; exact ⟨x, y, z, rfl, rfl⟩
      · match hl : l.overflowBackground, h2 with
        | [x, y, z, w], _ => exact ⟨x, y, z, rfl, rfl⟩
    obtain ⟨x, y, z, e1, e2⟩ := key
    rw [e1] at hop
    refine ⟨_, by rw [e2]; simp only [bind, Except.bind, pure, Except.pure, setSource_ok h2, setSource_ok hop]; rfl, ?_⟩
    intro k hk
    simp [Ctx.paints, Ctx.call, Ctx.after, hk, e1]
    norm_num
  · simp only [gt_iff_lt, hw, if_false]
    refine ⟨_, by simp only [bind, Except.bind, pure, Except.pure, setSource_ok h1]; rfl, ?_⟩
    intro k hk
    simp [Ctx.paints, Ctx.call, Ctx.after, hk]

theorem entity_draws (ext : ℝ → Text → Extents) (W : ℝ) {e : Entity} (he : EntityOk e) :
    ∃ cs, drawEntity ext W e = .ok cs ∧ ∀ k : Ctx, k.path = [] →
      k.paints cs = entityPaint ext W e ∧ (k.after cs).path = [] := by
  cases e with
  | rect x y c w h =>
    refine ⟨_, by simp only [drawEntity, bind, Except.bind, pure, Except.pure, setSource_ok (show ColourOk c from he)]; rfl, ?_⟩
    intro k hk
    simp [Ctx.paints, Ctx.call, Ctx.after, hk, entityPaint]
  | line x y c ex ey w dashed =>
    refine ⟨_, by simp only [drawEntity, bind, Except.bind, pure, Except.pure, setSource_ok (show ColourOk c from he)]; rfl, ?_⟩
    intro k hk
    simp [Ctx.paints, Ctx.call, Ctx.after, hk, entityPaint]
  | circle x y c rad label =>
    obtain ⟨h1, h2⟩ := he
    cases label with
    | none =>
      refine ⟨_, by simp only [drawEntity, bind, Except.bind, pure, Except.pure, setSource_ok h1]; rfl, ?_⟩
      intro k hk
      simp [Ctx.paints, Ctx.call, Ctx.after, hk, entityPaint]
    | some l =>
      obtain ⟨h3, h4⟩ := h2 l rfl
      obtain ⟨cs, hcs, hp⟩ := label_draws ext W rad h3 h4
      refine ⟨_, by simp only [drawEntity, bind, Except.bind, pure, Except.pure, setSource_ok h1, hcs]; rfl, ?_⟩
      intro k hk
      rw [paints_append k ([Cairo.source c] ++ [Cairo.arc x y rad 0 (2 * Real.pi), Cairo.fill]) cs,
        after_append k ([Cairo.source c] ++ [Cairo.arc x y rad 0 (2 * Real.pi), Cairo.fill]) cs]
      have := hp (k.after ([Cairo.source c] ++ [Cairo.arc x y rad 0 (2 * Real.pi), Cairo.fill]))
        (by simp [Ctx.after, Ctx.call])
      rw [this.1, this.2]
      simp [Ctx.paints, Ctx.call, hk, entityPaint]

/-- **C62**: with proper colours, the PNG backend paints exactly the given entities, in
order, each with its own colour, line width and dashes, whatever was painted before. -/
theorem C62_png (ext : ℝ → Text → Extents) (es : List Entity) (W : ℝ) (H : Int)
    (h : ∀ e ∈ es, EntityOk e) :
    ∃ calls, pngCalls ext (es, W, H) = .ok calls ∧
      Ctx.paints {} calls = es.flatMap (entityPaint ext W) := by
  have key : ∀ es : List Entity, (∀ e ∈ es, EntityOk e) → ∃ calls,
      Renderer.yields es (drawEntity ext W) = .ok calls ∧ ∀ k : Ctx, k.path = [] →
        k.paints calls = es.flatMap (entityPaint ext W) := by
    intro es
    induction es with
    | nil => intro _; exact ⟨[], rfl, fun _ _ => rfl⟩
    | cons e es ih =>
      intro h
      obtain ⟨a, ha, hpa⟩ := entity_draws ext W (h e (by simp))
      obtain ⟨b, hb, hpb⟩ := ih fun x hx => h x (by simp [hx])
      refine ⟨a ++ b, ?_, ?_⟩
      · unfold Renderer.yields
        rw [ha, hb]; rfl
      · intro k hk
        rw [paints_append, (hpa k hk).1, hpb _ (hpa k hk).2]
        rfl
  obtain ⟨calls, h1, h2⟩ := key es h
  exact ⟨calls, h1, h2 {} rfl⟩

theorem setSource_bad {c : Colour} (h : ¬ ColourOk c) : setSource c = .error .typeError := if_neg h

theorem rgb_bad {c : Colour} (h : ¬ ColourOk c) : rgb c = .error .valueError := by
  match c, h with
  | [], _ => rfl
  | [_], _ => rfl
  | [_, _], _ => rfl
  | [_, _, _], h => exact absurd (.inl rfl) h
  | [_, _, _, _], h => exact absurd (.inr rfl) h
  | _ :: _ :: _ :: _ :: _ :: _, _ => rfl

/-- Only the colours that are used matter for a label. -/
theorem drawLabel_congr (ext : ℝ → Text → Extents) (W m : ℝ) (l : Label) (c o : Colour)
    (hc : ¬ m < (ext l.size l.text).width → c = l.colour) (ho : m < (ext l.size l.text).width → o = l.overflowBackground) :
    drawLabel ext { l with colour := c, overflowBackground := o } m W = drawLabel ext l m W := by
  unfold drawLabel
  by_cases hw : m < (ext l.size l.text).width
  · obtain rfl := ho hw
    simp only [gt_iff_lt, hw, if_true]
  · obtain rfl := hc hw
    simp only [gt_iff_lt, hw, if_false]

theorem labelPaint_congr (ext : ℝ → Text → Extents) (W m : ℝ) (l : Label) (c o : Colour)
    (hc : ¬ 2 * m < (ext l.size l.text).width → c = l.colour)
    (ho : 2 * m < (ext l.size l.text).width → o = l.overflowBackground) :
    labelPaint ext W m { l with colour := c, overflowBackground := o } = labelPaint ext W m l := by
  unfold labelPaint
  by_cases hw : 2 * m < (ext l.size l.text).width
  · obtain rfl := ho hw
    simp only [hw, if_true]
  · obtain rfl := hc hw
    simp only [hw, if_false]

theorem entity_paints (ext : ℝ → Text → Extents) (W : ℝ) (e : Entity) :
    (∀ er, paintError ext e = some er → drawEntity ext W e = .error er) ∧
    (paintError ext e = none → ∃ cs, drawEntity ext W e = .ok cs ∧ ∀ k : Ctx, k.path = [] →
      k.paints cs = entityPaint ext W e ∧ (k.after cs).path = []) := by
  cases e with
  | rect x y c w h =>
    by_cases hc : ColourOk c
    · exact ⟨by simp [paintError, hc], fun _ => entity_draws ext W (e := .rect x y c w h) hc⟩
    · refine ⟨?_, by simp [paintError, hc]⟩
      simp [paintError, hc, drawEntity, setSource_bad hc, bind, Except.bind]
  | line x y c ex ey w dashed =>
    by_cases hc : ColourOk c
    · exact ⟨by simp [paintError, hc], fun _ => entity_draws ext W (e := .line x y c ex ey w dashed) hc⟩
    · refine ⟨?_, by simp [paintError, hc]⟩
      simp [paintError, hc, drawEntity, setSource_bad hc, bind, Except.bind]
  | circle x y c rad label =>
    by_cases hc : ColourOk c
    · cases label with
      | none => exact ⟨by simp [paintError, hc], fun _ => entity_draws ext W (e := .circle x y c rad none) ⟨hc, nofun⟩⟩
      | some l =>
        by_cases hw : 2 * rad < (ext l.size l.text).width
        · by_cases ho : ColourOk l.overflowBackground
          · refine ⟨by simp [paintError, hc, hw, ho], fun _ => ?_⟩
            have := entity_draws ext W (e := .circle x y c rad (some { l with
              colour := l.overflowBackground
              overflowBackground := l.overflowBackground })) ⟨hc, by rintro t ⟨⟩; exact ⟨ho, ho⟩⟩
            simp only [drawEntity, entityPaint] at this ⊢
            rw [drawLabel_congr ext W (2 * rad) l l.overflowBackground l.overflowBackground (fun h => absurd hw h)
              (fun _ => rfl), labelPaint_congr ext W rad l l.overflowBackground l.overflowBackground
              (fun h => absurd hw h) (fun _ => rfl)] at this
            exact this
          · refine ⟨?_, by simp [paintError, hc, hw, ho]⟩
            simp [paintError, hc, hw, ho, drawEntity, drawLabel, setSource_ok hc, rgb_bad ho, bind, Except.bind]
        · by_cases ho : ColourOk l.colour
          · refine ⟨by simp [paintError, hc, hw, ho], fun _ => ?_⟩
            have := entity_draws ext W (e := .circle x y c rad (some { l with
              colour := l.colour
              overflowBackground := l.colour })) ⟨hc, by rintro t ⟨⟩; exact ⟨ho, ho⟩⟩
            simp only [drawEntity, entityPaint] at this ⊢
            rw [drawLabel_congr ext W (2 * rad) l l.colour l.colour (fun _ => rfl) (fun h => absurd h hw),
              labelPaint_congr ext W rad l l.colour l.colour (fun _ => rfl) (fun h => absurd h hw)] at this
            exact this
          · refine ⟨?_, by simp [paintError, hc, hw, ho]⟩
            simp [paintError, hc, hw, ho, drawEntity, drawLabel, setSource_ok hc, setSource_bad ho, bind, Except.bind,
              pure, Except.pure]
    · refine ⟨?_, by simp [paintError, hc]⟩
      simp [paintError, hc, drawEntity, setSource_bad hc, bind, Except.bind]

/-- **C62**: for all colours, the exception of the first entity that cannot be painted is raised; if there is none, the
entities are painted. -/
theorem C62_colours (ext : ℝ → Text → Extents) (es : List Entity) (W : ℝ) (H : Int) :
    (∀ er, es.findSome? (paintError ext) = some er → pngCalls ext (es, W, H) = .error er) ∧
    (es.findSome? (paintError ext) = none → ∃ calls, pngCalls ext (es, W, H) = .ok calls ∧
      Ctx.paints {} calls = es.flatMap (entityPaint ext W)) := by
  have key : ∀ es : List Entity,
      (∀ er, es.findSome? (paintError ext) = some er → Renderer.yields es (drawEntity ext W) = .error er) ∧
      (es.findSome? (paintError ext) = none → ∃ calls,
        Renderer.yields es (drawEntity ext W) = .ok calls ∧ ∀ k : Ctx, k.path = [] →
          k.paints calls = es.flatMap (entityPaint ext W)) := by
    intro es
    induction es with
    | nil => exact ⟨by simp, fun _ => ⟨[], rfl, fun _ _ => rfl⟩⟩
    | cons e es ih =>
      obtain ⟨p1, p2⟩ := entity_paints ext W e
      rw [List.findSome?_cons]
      cases he : paintError ext e with
      | some er =>
        refine ⟨?_, by simp⟩
        intro er' h
        cases h
        unfold Renderer.yields
        rw [p1 _ he]; rfl
      | none =>
        obtain ⟨a, ha, hpa⟩ := p2 he
        refine ⟨?_, ?_⟩
        · intro er h
          unfold Renderer.yields
          rw [ha, ih.1 er h]; rfl
        · intro h
          obtain ⟨b, hb, hpb⟩ := ih.2 h
          refine ⟨a ++ b, ?_, ?_⟩
          · unfold Renderer.yields
            rw [ha, hb]; rfl
          · intro k hk
            rw [paints_append, (hpa k hk).1, hpb _ (hpa k hk).2]
            rfl
  obtain ⟨h1, h2⟩ := key es
  refine ⟨h1, fun h => ?_⟩
  obtain ⟨calls, h3, h4⟩ := h2 h
  exact ⟨calls, h3, h4 {} rfl⟩

/-- A black rectangle is painted, one without colour is not. -/
example (ext : ℝ → Text → Extents) :
    [Entity.rect 0 0 [0, 0, 0] 1 1, .rect 0 0 [] 1 1].findSome? (paintError ext) = some .typeError := by
  simp [paintError, ColourOk]

section
variable {S V X L α : Type} [DecidableEq S] [DecidableEq V] [DecidableEq X] [LinearOrder L] [Arith α]

/-- **C62** for datasets: pictures with proper colours can be painted. -/
theorem C62_picture (r : Renderer S V X L) (l : List (S × V × X)) (H : Int)
    {colour : NodeHint S V X → Colour × Colour × Colour} (progress : Option ℝ)
    (hb : ColourOk r.colours.background) (he : ColourOk r.colours.edge) (hp : ColourOk r.colours.progress)
    (hcol : ∀ h, ColourOk (colour h).1 ∧ ColourOk (colour h).2.1 ∧ ColourOk (colour h).2.2) :
    ∀ e ∈ picture r l H colour progress, EntityOk e := by
  have hedge : ∀ a b, ∀ e ∈ edge r a b, EntityOk e := by
    intro a b e hm
    simp only [edge, Spec.segment, List.mem_cons, List.not_mem_nil, or_false] at hm
    rcases hm with rfl | rfl | rfl <;> exact he
  have hnode : ∀ h t p, ∀ e ∈ node r (colour h) t p, EntityOk e := by
    intro h t p e hm
    unfold node at hm
    rcases List.mem_append.1 hm with hm | hm
    · split at hm
      · simp only [List.mem_singleton] at hm
        subst hm
        exact ⟨(hcol h).2.2, nofun⟩
      · cases hm
    · simp only [List.mem_singleton] at hm
      subst hm
      refine ⟨(hcol h).1, ?_⟩
      rintro t ⟨⟩
      exact ⟨(hcol h).2.1, hb⟩
  intro e hm
  unfold picture at hm
  simp only [List.mem_append, List.mem_flatMap] at hm
  rcases hm with ((((hm | ⟨t, -, hm⟩) | ⟨c', hc', hm | hm⟩) | ⟨v, hv, hm⟩) | ⟨s, hs, hm⟩) | hm
  · simp only [List.mem_singleton] at hm
    subst hm; exact hb
  · exact hedge _ _ _ hm
  · exact hedge _ _ _ hm
  · exact hnode _ _ _ _ hm
  · exact hnode _ _ _ _ hm
  · exact hnode _ _ _ _ hm
  · cases progress with
    | none => cases hm
    | some x =>
      simp only [List.mem_singleton] at hm
      subst hm; exact hp

omit [DecidableEq S] [DecidableEq V] [DecidableEq X] [LinearOrder L] [Arith α] in
theorem pyIndex_mem {β : Type} {A : List β} {i : Int} {x : β} (h : pyIndex A i = .ok x) : x ∈ A := by
  unfold pyIndex at h
  generalize (if i < 0 then i + (A.length : Int) else i) = j at h
  dsimp only at h
  by_cases hj : j < 0
  · rw [if_pos hj] at h; cases h
  · rw [if_neg hj] at h
    cases hx : A[j.toNat]? with
    | none => rw [hx] at h; cases h
    | some y =>
      rw [hx] at h
      injection h with h
      subst h
      exact List.mem_of_getElem? hx

/-- The schemes of the library have proper colours. -/
theorem C62_schemes :
    (∀ s : Scheme S V X, s = defaultScheme ∨ s = plainScheme ∨
        (∃ (R : Rounding) (res : Result S V X (FP R)), s = gradientScheme res) →
      ColourOk s.background ∧ ColourOk s.edge ∧ ColourOk s.progress ∧
      ∀ h c, s.node h = .ok c → ColourOk c.1 ∧ ColourOk c.2.1 ∧ ColourOk c.2.2) := by
  have hgr : ∀ c ∈ gradientColours, ColourOk c := by
    intro c hc
    simp only [gradientColours, List.mem_cons, List.not_mem_nil, or_false] at hc
    rcases hc with rfl | rfl | rfl | rfl | rfl | rfl | rfl | rfl | rfl <;> exact .inl rfl
  have hgraded : ∀ (R : Rounding) (x : FP R) c, gradedColours x = .ok c → ColourOk c.1 ∧ ColourOk c.2 := by
    intro R x c h
    unfold gradedColours at h
    simp only [bind, Except.bind, pure, Except.pure] at h
    split at h
    · cases h
    · split at h
      · cases h
      · rename_i i _ _ w hw
        injection h with h
        subst h
        refine ⟨hgr _ ?_, ?_⟩
        · exact pyIndex_mem hw
        · simp only
          split <;> exact .inl rfl
  rintro s (rfl | rfl | ⟨R, res, rfl⟩)
  · refine ⟨.inl rfl, .inl rfl, .inl rfl, ?_⟩
    intro h c hc
    simp only [defaultScheme, Except.ok.injEq] at hc
    subst hc
    refine ⟨?_, .inl rfl, .inl rfl⟩
    cases h <;> exact .inl rfl
  · refine ⟨.inr rfl, .inl rfl, .inl rfl, ?_⟩
    intro h c hc
    simp only [plainScheme, Except.ok.injEq] at hc
    subst hc
    exact ⟨.inl rfl, .inl rfl, .inl rfl⟩
  · refine ⟨.inl rfl, .inl rfl, .inl rfl, ?_⟩
    intro h c hc
    unfold gradientScheme at hc
    simp only [defaultScheme, bind, Except.bind, pure, Except.pure] at hc
    cases h with
    | var v =>
      simp only [Except.ok.injEq] at hc
      subst hc
      exact ⟨.inl rfl, .inl rfl, .inl rfl⟩
    | claim v x =>
      simp only at hc
      split at hc
      · cases hc
      · split at hc
        · cases hc
        · split at hc
          · cases hc
          · rename_i w hw
            simp only [Except.ok.injEq] at hc
            subst hc
            exact ⟨(hgraded _ _ _ hw).1, (hgraded _ _ _ hw).2, .inl rfl⟩
    | source v =>
      simp only at hc
      split at hc
      · cases hc
      · split at hc
        · cases hc
        · rename_i w hw
          simp only [Except.ok.injEq] at hc
          subst hc
          exact ⟨(hgraded _ _ _ hw).1, (hgraded _ _ _ hw).2, .inl rfl⟩

end

/-! ### C57: animations -/

/-- **C57**, constructor: frames per second are the inverse of the duration; a duration of 0
and a renderer with the wrong backend are rejected. -/
theorem C57_constructor {S V X L : Type} (kind : AnimatorKind) (default : Renderer S V X L)
    (renderer : Option (Renderer S V X L × Backend)) (t : ℝ) :
    (t = 0 → mkAnimator kind default renderer t = .error .zeroDivision) ∧
    (t ≠ 0 → renderer = none → ∃ b ∈ kind.supported,
      mkAnimator kind default renderer t = .ok ⟨kind, default, b, 1 / t⟩) ∧
    (∀ r b, t ≠ 0 → renderer = some (r, b) → mkAnimator kind default renderer t =
      if b ∈ kind.supported then .ok ⟨kind, r, b, 1 / t⟩ else .error .typeError) := by
  refine ⟨?_, ?_, ?_⟩
  · intro h
    unfold mkAnimator
    cases renderer <;> cases kind <;>
      simp [AnimatorKind.supported, h, bind, Except.bind, pure, Except.pure]
  · rintro h rfl
    unfold mkAnimator
    cases kind <;> simp [AnimatorKind.supported, h, bind, Except.bind, pure, Except.pure]
  · rintro r b h rfl
    unfold mkAnimator
    cases kind <;> simp [AnimatorKind.supported, h, bind, Except.bind, pure, Except.pure]

section
variable {S V X L : Type} [DecidableEq S] [DecidableEq V] [DecidableEq X] [LinearOrder L] {R : Rounding}

/-- The picture of one partial result. -/
noncomputable def framePicture (r : Renderer S V X L) (l : List (S × V × X))
    (colour : NodeHint S V X → Colour × Colour × Colour) (res : Result S V X (FP R))
    (progress : Option ℝ) : Frame :=
  (picture { r with colours := gradientScheme res } l (heightOf r l) colour progress, r.width,
    heightOf r l)

theorem fp_one_ne_zero (R : Rounding) : Arith.eq (Arith.ofNat 1 : FP R) (Arith.ofNat 0) = false := by
  show FNum.eq (R.rnd ((1 : Nat) : ℝ)) (R.rnd ((0 : Nat) : ℝ)) = false
  rw [Nat.cast_one, Nat.cast_zero, R.one, R.zero]
  simp [FNum.eq, FNum.toEReal]

theorem frameLoop_eq {l : List (S × V × X)} {am : Bool} {f : Option (V → X → X → Option (FP R))}
    {d : Dataset S V X (FP R)} (hd : Dataset.mk' l am f = .ok d) {r : Renderer S V X L}
    (hlt : ∀ a b, r.lt a b = decide (a < b))
    {colour : Result S V X (FP R) → NodeHint S V X → Colour × Colour × Colour}
    {ps : List (Nat × Result S V X (FP R))}
    (hcol : ∀ p ∈ ps, ∀ h, IsNode l h → (gradientScheme p.2).node h = .ok (colour p.2 h))
    (sp : Bool) (num : Int) (hz : ¬ (sp = true ∧ num = 0)) (sch : Scheme S V X)
    (st : Renderer.State S V X (FP R)) :
    (frameLoop d sp num ps { r with colours := sch } st).2 =
      (ps.map fun p => framePicture r l (colour p.2) p.2
        (if sp then some ((p.1 : ℝ) / num) else none), none) ∧
    (frameLoop d sp num ps { r with colours := sch } st).1.1 =
      { r with colours := match ps.getLast? with
        | none => sch
        | some p => gradientScheme p.2 } := by
  induction ps generalizing sch st with
  | nil => exact ⟨rfl, rfl⟩
  | cons p ps ih =>
    obtain ⟨i, res⟩ := p
    have hren := C54_render (fp_one_ne_zero R) hd ({ r with colours := gradientScheme res }) hlt
      (hcol (i, res) (by simp)) st (if sp then some ((i : ℝ) / num) else none)
    unfold frameLoop
    simp only [if_neg hz]
    have hren' : (Renderer.render { r with colours := gradientScheme res } st d
        (if sp = true then some ((i : ℝ) / num) else none)) =
        ((Renderer.render { r with colours := gradientScheme res } st d
        (if sp = true then some ((i : ℝ) / num) else none)).1,
          .ok (framePicture r l (colour res) res (if sp then some ((i : ℝ) / num) else none))) :=
      Prod.ext rfl hren
    rw [hren']
    simp only
    obtain ⟨h1, h2⟩ := ih (fun q hq => hcol q (by simp [hq])) (gradientScheme res)
      (Renderer.render { r with colours := gradientScheme res } st d
        (if sp = true then some ((i : ℝ) / num) else none)).1
    constructor
    · rw [h1]; rfl
    · rw [h2]
      congr 1
      cases hl : ps.getLast? with
      | none =>
        have : ps = [] := List.getLast?_eq_none_iff.1 hl
        subst this; rfl
      | some q =>
        rw [List.getLast?_cons, hl]; rfl

/-- **C57** without the progress bar: always one frame per partial result. -/
theorem C57_frames_plain {l : List (S × V × X)} {am : Bool} {f : Option (V → X → X → Option (FP R))}
    {d : Dataset S V X (FP R)} (hd : Dataset.mk' l am f = .ok d) (r : Renderer S V X L)
    (hlt : ∀ a b, r.lt a b = decide (a < b)) (st : Renderer.State S V X (FP R)) (c : AlgCfg (FP R))
    (fuel : Nat) (clock : Nat → FP R) (ist : IterState (FP R)) {rs : List (Result S V X (FP R))}
    (hrun : c.runIter d fuel clock ist = .ok rs)
    {colour : Result S V X (FP R) → NodeHint S V X → Colour × Colour × Colour}
    (hcol : ∀ res ∈ rs, ∀ h, IsNode l h → (gradientScheme res).node h = .ok (colour res h)) :
    (getFrames r st c d fuel clock false ist).2 =
      (rs.map fun res => framePicture r l (colour res) res none, none) := by
  have hcol' : ∀ p ∈ enum rs, ∀ h, IsNode l h → (gradientScheme p.2).node h = .ok (colour p.2 h) := by
    intro p hp h hh
    exact hcol p.2 (List.mem_of_getElem? (mem_enum'.1 hp)) h hh
  unfold getFrames
  rw [hrun]
  simp only
  have := (frameLoop_eq hd hlt hcol' false ((rs.length : Int) - 1) (by simp) r.colours st).1
  rw [show ({ r with colours := r.colours } : Renderer S V X L) = r from rfl] at this
  rw [this]
  congr 1
  apply List.ext_getElem
  · simp [enum]
  · intro i h1 h2
    simp [enum]

/-- **C57**: for every partial result of the algorithm there is one frame; it shows
the dataset in the colours of that result, and (if asked for) the progress, which starts at
0, ends at 1 and increases strictly in equal steps.  Hypothesis: every score of the
partial results has a colour (C56), and there is not exactly one of them. -/
theorem C57_frames {l : List (S × V × X)} {am : Bool} {f : Option (V → X → X → Option (FP R))}
    {d : Dataset S V X (FP R)} (hd : Dataset.mk' l am f = .ok d) (r : Renderer S V X L)
    (hlt : ∀ a b, r.lt a b = decide (a < b)) (st : Renderer.State S V X (FP R)) (c : AlgCfg (FP R))
    (fuel : Nat) (clock : Nat → FP R) (ist : IterState (FP R)) {rs : List (Result S V X (FP R))}
    (hrun : c.runIter d fuel clock ist = .ok rs)
    {colour : Result S V X (FP R) → NodeHint S V X → Colour × Colour × Colour}
    (hcol : ∀ res ∈ rs, ∀ h, IsNode l h → (gradientScheme res).node h = .ok (colour res h))
    (hne : rs.length ≠ 1) :
    ∃ ps : List ℝ, ps.length = rs.length ∧ (∀ x ∈ ps.head?, x = 0) ∧ (∀ x ∈ ps.getLast?, x = 1) ∧
      ps.Pairwise (· < ·) ∧
      (getFrames r st c d fuel clock true ist).2 =
        (List.zipWith (fun res p => framePicture r l (colour res) res (some p)) rs ps, none) ∧
      (getFrames r st c d fuel clock false ist).2 =
        (rs.map fun res => framePicture r l (colour res) res none, none) := by
  have hcol' : ∀ p ∈ enum rs, ∀ h, IsNode l h → (gradientScheme p.2).node h = .ok (colour p.2 h) := by
    intro p hp h hh
    exact hcol p.2 (List.mem_of_getElem? (mem_enum'.1 hp)) h hh
  refine ⟨(List.range rs.length).map fun i : Nat => (i : ℝ) / ((rs.length : ℝ) - 1), by simp, ?_, ?_, ?_, ?_, ?_⟩
  · intro x hx
    cases hrs : rs.length with
    | zero => simp [hrs] at hx
    | succ n =>
      rw [hrs, List.range_succ_eq_map] at hx
      simpa using hx.symm
  · intro x hx
    cases hrs : rs.length with
    | zero => simp [hrs] at hx
    | succ n =>
      rw [hrs, List.range_succ, List.map_append] at hx
      simp at hx
      have hn : (n : ℝ) ≠ 0 := by
        intro e
        have : n = 0 := by exact_mod_cast e
        omega
      rw [← hx, div_self hn]
  · rw [List.pairwise_map]
    refine List.pairwise_lt_range.imp_of_mem ?_
    intro a b ha hb hab
    have hb := List.mem_range.1 hb
    have h1 : (0 : ℝ) < (rs.length : ℝ) - 1 := by
      have : (1 : ℝ) < rs.length := by exact_mod_cast (show 1 < rs.length by omega)
      linarith
    exact div_lt_div_of_pos_right (by exact_mod_cast hab) h1
  · unfold getFrames
    rw [hrun]
    simp only
    have := (frameLoop_eq hd hlt hcol' true ((rs.length : Int) - 1) (by omega) r.colours st).1
    rw [show ({ r with colours := r.colours } : Renderer S V X L) = r from rfl] at this
    rw [this]
    congr 1
    apply List.ext_getElem
    · simp [enum]
    · intro i h1 h2
      simp [enum]
  · exact C57_frames_plain hd r hlt st c fuel clock ist hrun hcol

/-- **C57**: if the algorithm raises, so does the animation, without any frame. -/
theorem C57_exception (r : Renderer S V X L) (st : Renderer.State S V X (FP R)) (c : AlgCfg (FP R))
    (d : Dataset S V X (FP R)) (fuel : Nat) (clock : Nat → FP R) (sp : Bool) (ist : IterState (FP R))
    {e : PyErr} (hrun : c.runIter d fuel clock ist = .error e) :
    (getFrames r st c d fuel clock sp ist).2 = ([], some e) := by
  unfold getFrames
  rw [hrun]

/-- **C57**: with exactly one partial result and the progress bar, there is a
`ZeroDivisionError` instead of a frame. -/
theorem C57_zero_division (r : Renderer S V X L) (st : Renderer.State S V X (FP R)) (c : AlgCfg (FP R))
    (d : Dataset S V X (FP R)) (fuel : Nat) (clock : Nat → FP R) (ist : IterState (FP R))
    {rs : List (Result S V X (FP R))} (hrun : c.runIter d fuel clock ist = .ok rs)
    (h1 : rs.length = 1) :
    (getFrames r st c d fuel clock true ist).2 = ([], some .zeroDivision) := by
  unfold getFrames
  rw [hrun]
  obtain ⟨x, rfl⟩ := List.length_eq_one_iff.1 h1
  simp [enum, frameLoop]

/-- **C57**: when this happens: after no iteration, for CRH after one. -/
theorem C57_when_one {l : List (S × V × X)} {am : Bool} {f : Option (V → X → X → Option (FP R))}
    {d : Dataset S V X (FP R)} (hd : Dataset.mk' l am f = .ok d) (c : AlgCfg (FP R))
    (fuel : Nat) (clock clock' : Nat → FP R) (ist ist' : IterState (FP R))
    {rs : List (Result S V X (FP R))} {res : Result S V X (FP R)}
    (hrun : c.runIter d fuel clock ist = .ok rs) (hres : c.run d fuel clock' ist' = .ok res) :
    rs.length = 1 ↔ res.iterations = some (if startsWithInitial c.kind then 0 else 1) := by
  obtain ⟨n, h1, h2, -⟩ := C26_numbering (fp_one_ne_zero R) l am f d hd c fuel clock clock' ist ist' rs res
    hrun hres
  rw [h2, h1]
  split <;> simp

/-- **C55**, **C57**: an animation leaves the renderer with the colours of its last
frame. -/
theorem C57_colours_afterwards {l : List (S × V × X)} {am : Bool}
    {f : Option (V → X → X → Option (FP R))} {d : Dataset S V X (FP R)}
    (hd : Dataset.mk' l am f = .ok d) (r : Renderer S V X L)
    (hlt : ∀ a b, r.lt a b = decide (a < b)) (st : Renderer.State S V X (FP R)) (c : AlgCfg (FP R))
    (fuel : Nat) (clock : Nat → FP R) (ist : IterState (FP R)) {rs : List (Result S V X (FP R))}
    (hrun : c.runIter d fuel clock ist = .ok rs)
    {colour : Result S V X (FP R) → NodeHint S V X → Colour × Colour × Colour}
    (hcol : ∀ res ∈ rs, ∀ h, IsNode l h → (gradientScheme res).node h = .ok (colour res h))
    {last : Result S V X (FP R)} (hl : rs.getLast? = some last) :
    (getFrames r st c d fuel clock false ist).1.1 = { r with colours := gradientScheme last } := by
  have hcol' : ∀ p ∈ enum rs, ∀ h, IsNode l h → (gradientScheme p.2).node h = .ok (colour p.2 h) := by
    intro p hp h hh
    exact hcol p.2 (List.mem_of_getElem? (mem_enum'.1 hp)) h hh
  unfold getFrames
  rw [hrun]
  have := (frameLoop_eq hd hlt hcol' false ((rs.length : Int) - 1) (by simp) r.colours st).2
  rw [show ({ r with colours := r.colours } : Renderer S V X L) = r from rfl] at this
  simp only
  rw [this]
  have hlast : (enum rs).getLast? = some (rs.length - 1, last) := by
    rw [List.getLast?_eq_getElem?] at hl ⊢
    rw [length_enum]
    obtain ⟨h, e⟩ := List.getElem?_eq_some_iff.1 hl
    rw [List.getElem?_eq_getElem (by rw [length_enum]; exact h), getElem_enum, e]
  rw [hlast]

/-- **C58** for animations: the document of the JSON animator contains the frames. -/
theorem C58_animation (a : Animator S V X L) (st : Renderer.State S V X (FP R)) (c : AlgCfg (FP R))
    (d : Dataset S V X (FP R)) (fuel : Nat) (clock : Nat → FP R) (sp : Bool) (ist : IterState (FP R))
    {fs : List Frame} (h : (getFrames a.renderer st c d fuel clock sp ist).2 = (fs, none)) :
    ∃ doc, jsonAnimation a st c d fuel clock sp ist = .ok doc ∧
      readAnimation doc = some (a.fps, fs.map fun f => (f.1, f.2.1, (f.2.2 : ℝ))) := by
  refine ⟨_, by unfold jsonAnimation; rw [h], ?_⟩
  have hm : (fs.map jsonDoc).mapM readDoc = some (fs.map fun f => (f.1, f.2.1, (f.2.2 : ℝ))) := by
    rw [List.mapM_map]
    exact mapM_some fun f _ => C58_round_trip f.1 f.2.1 f.2.2
  set doc := Json.obj [("fps".toList, .num a.fps), ("frames".toList, .arr (fs.map jsonDoc))]
  have h1 : field doc "fps" = some (.num a.fps) := rfl
  have h2 : field doc "frames" = some (.arr (fs.map jsonDoc)) := rfl
  unfold readAnimation numField
  simp only [h1, h2, bind, Option.bind, asArr, asNum, pure, hm]

end

end TD
