import Verif.Lemmas.Sound
import Verif.Props.Backends
/-!
# Well configured algorithms (C57, C63)
-/

namespace TD
open Spec Ex
attribute [-instance] instBEqProd

variable {S V X : Type} [DecidableEq S] [DecidableEq V] [DecidableEq X] {l : List (S × V × X)}

theorem compare_reps (hl : l ≠ []) {it : IterCfg Ex} (hm : MeasureOk it) (st : IterState Ex)
    (t t' : S → ℝ) {e : PyErr} : it.compare st (repS l t) (repS l t') ≠ .error e := by
  intro h
  cases it with
  | fixed => simp [IterCfg.compare] at h
  | conv ms th lim =>
    cases ms with
    | none => exact hm th lim rfl
    | some m =>
      have hg := getDistance_eq (nodup_sources l) (sources_ne hl) m t t'
      simp only [IterCfg.compare, repS, hg, bind, Except.bind, pure, Except.pure] at h
      cases h
  | ord th =>
    have h1 := rankingVector_fin (sources l) t
    have h2 := rankingVector_fin (sources l) t'
    simp only [IterCfg.compare, repS, h1, h2, bind, Except.bind, pure, Except.pure] at h
    cases h

theorem finish_reps {c : AlgCfg Ex} (hc : c.kind = .unboundedSums → ∃ th, c.iterator = .ord th)
    (t : S → ℝ) (b : V × X → ℝ) {e : PyErr} : c.finish (repS l t) (repC l b) ≠ .error e := by
  intro h
  obtain ⟨k, it, pr⟩ := c
  cases k with
  | unboundedSums =>
    obtain ⟨th, rfl⟩ := hc rfl
    have h1 := rankingVector_fin (sources l) t
    have h2 := rankingVector_fin (claims l) b
    simp only [AlgCfg.finish, repS, repC, h1, h2, bind, Except.bind, pure, Except.pure] at h
    cases h
  | _ => simp [AlgCfg.finish] at h

theorem Implements.exec_error (hl : l ≠ []) {c : AlgCfg Ex} {f : Option (V → X → X → Option Ex)}
    {init : Scores S V X} {step : Scores S V X → Scores S V X}
    {cmp : Scores S V X → (S → ℝ) × (S → ℝ)} {Inv : Scores S V X → Prop}
    (H : Implements c l f init step cmp Inv) (hm : MeasureOk c.iterator)
    (hc : c.kind = .unboundedSums → ∃ th, c.iterator = .ord th) {fuel : Nat} {st : IterState Ex}
    {e : PyErr} (h : c.exec (matsOf l f) fuel st = .error e) :
    (e = .convergence ∧ ∃ ms th lim, c.iterator = .conv ms th lim) ∨
    (e = .diverge ∧ (∀ n : Int, c.iterator = .fixed n → (fuel : Int) ≤ max n 0) ∧
      ∀ ms th n, c.iterator = .conv ms th n → (fuel : Int) ≤ max n 0) := by
  rw [exec_eq _ _ _ _ (numClaims_ne hl), H.init_eq] at h
  simp only at h
  split at h
  · rename_i e' hlo
    cases h
    rcases (loop_error_iff _ _ _ _ _ _).1 hlo with ⟨rfl, st', t', b', L, hs⟩ | ⟨n, st', t', b', L, -, hs, hr⟩
    · refine .inr ⟨rfl, ?_, ?_⟩
      · intro n hn
        rw [hn] at hs
        rcases lt_or_ge n 0 with h0 | h0
        · cases hs with
          | refl => simp
          | cons hf =>
            simp only [IterCfg.finished, Except.ok.injEq, decide_eq_false_iff_not] at hf
            exact absurd (show ((0 : Nat) : Int) ≥ n by omega) hf
        · obtain ⟨N, rfl⟩ := Int.eq_ofNat_of_zero_le h0
          have := fixed_steps_le hs
          omega
      · intro ms th n hn
        rw [hn] at hs
        have := conv_steps_le hs
        omega
    · obtain ⟨rfl, rfl, -⟩ := H.steps_aux H.inv_init hs
      rcases hr with hr | ⟨-, hr | ⟨s, hb, hr⟩⟩
      · exact .inl (finished_error hr)
      · rw [H.body_eq _ (H.inv_iterate n)] at hr
        cases hr
      · rw [H.body_eq _ (H.inv_iterate n)] at hb
        cases hb
        exact absurd hr (compare_reps hl hm _ _ _)
  · rename_i e' hlo
    obtain ⟨n, L, -, hs, -⟩ := (loop_ok_iff _ _ _ _ _ _).1 hlo
    obtain ⟨h1, h2, -⟩ := H.steps_aux H.inv_init hs
    rw [h1, h2] at h
    split at h
    · rename_i hf
      exact absurd hf (finish_reps hc _ _)
    · cases h

theorem sound_implements (hl : l ≠ []) {f : Option (V → X → X → Option ℝ)} {c : AlgCfg Ex}
    (hc : Sound l c) : ∃ init step cmp Inv, Implements c l (finImp f) init step cmp Inv := by
  obtain ⟨k, it, pr⟩ := c
  have hp : ∀ {pr : Option Prior}, pr ≠ none → ∃ p, pr = some p :=
    fun h => Option.ne_none_iff_exists'.1 h
  cases k with
  | sums =>
    obtain ⟨p, rfl⟩ := hp hc
    exact ⟨_, _, _, _, sums_implements _ hl it p⟩
  | averageLog =>
    obtain ⟨p, rfl⟩ := hp hc.1
    exact ⟨_, _, _, _, avlog_implements _ it p hc.2⟩
  | investment g =>
    obtain ⟨h1, y, rfl⟩ := hc
    obtain ⟨p, rfl⟩ := hp h1
    exact ⟨_, _, _, _, invest_implements _ hl it p y⟩
  | pooledInvestment g =>
    obtain ⟨h1, y, rfl⟩ := hc
    obtain ⟨p, rfl⟩ := hp h1
    exact ⟨_, _, _, _, pooled_implements _ hl it p y⟩
  | truthFinder rho gamma t =>
    obtain ⟨a, b, y, rfl, rfl, rfl, h0, h1⟩ := hc
    exact ⟨_, _, _, _, tf_implements f it pr a b y h0 h1⟩
  | crh eps =>
    obtain ⟨y, rfl, h0⟩ := hc
    exact ⟨_, _, _, _, crh_implements hl _ it pr y h0⟩
  | unboundedSums =>
    obtain ⟨h1, th, rfl⟩ := hc
    obtain ⟨p, rfl⟩ := hp h1
    exact ⟨_, _, _, _, usums_implements hl (finImp f) (.ord th) p⟩

/-- **C63.** A well configured algorithm on a non-empty dataset raises nothing but
`ConvergenceError`, and that only with a `ConvergenceIterator`.  (`diverge` is the model's
outcome when the number of loop tests reaches `fuel`: it does not occur for fixed and
convergence iterators if `fuel` exceeds their limit.) -/
theorem C63_exceptions (hl : l ≠ []) {am : Bool} {f : Option (V → X → X → Option ℝ)}
    {d : Dataset S V X Ex} (hd : Dataset.mk' l am (finImp f) = .ok d) {c : AlgCfg Ex} (hc : Sound l c)
    (hm : MeasureOk c.iterator) {fuel : Nat} {clock : Nat → Ex} {st : IterState Ex} {e : PyErr}
    (h : c.run d fuel clock st = .error e ∨ c.runIter d fuel clock st = .error e) :
    (e = .convergence ∧ ∃ ms th lim, c.iterator = .conv ms th lim) ∨
    (e = .diverge ∧ (∀ n : Int, c.iterator = .fixed n → (fuel : Int) ≤ max n 0) ∧
      ∀ ms th n, c.iterator = .conv ms th n → (fuel : Int) ≤ max n 0) := by
  obtain rfl := mk'_ex hd
  have hx : c.exec (matsOf l (finImp f)) fuel st = .error e := by
    rw [run_eq, runIter_eq] at h
    rcases h with h | h <;> split at h <;> first | (cases h; assumption) | cases h
  have hu : c.kind = .unboundedSums → ∃ th, c.iterator = .ord th := by
    intro hk
    unfold Sound at hc
    rw [hk] at hc
    exact hc.2
  obtain ⟨init, step, cmp, Inv, H⟩ := sound_implements hl hc (f := f)
  exact H.exec_error hl hm hu hx

/-- **C63.** All scores reported by `run` and in the partial results of `run_iter` are
finite and not negative. -/
theorem C63_scores (hl : l ≠ []) {am : Bool} {f : Option (V → X → X → Option ℝ)}
    {d : Dataset S V X Ex} (hd : Dataset.mk' l am (finImp f) = .ok d) {c : AlgCfg Ex} (hc : Sound l c)
    {fuel : Nat} {clock : Nat → Ex} {st : IterState Ex} :
    (∀ r, c.run d fuel clock st = .ok r → ∃ p, Reports l r p ∧ NonNeg l p) ∧
    (∀ rs, c.runIter d fuel clock st = .ok rs → ∀ r ∈ rs, ∃ p, Reports l r p ∧ NonNeg l p) :=
  ⟨fun _ h => sound_run hl hd hc h, fun _ h => sound_iter hl hd hc h⟩

/-! ### C57: the frames of well configured algorithms -/

theorem getD_shade (x : ℝ) : greens.getD (shade x) [] = gradientColours[shade x]'(shade_lt x) := by
  show gradientColours.getD (shade x) [] = _
  rw [List.getD_eq_getElem?_getD, List.getElem?_eq_getElem (shade_lt x)]
  rfl

theorem scheme_sound {res : Result S V X Ex} {p : Scores S V X} (hr : Reports l res p)
    (hp : NonNeg l p) : ∀ h, IsNode l h → (gradientScheme res).node h = .ok (scoreColour p h) := by
  obtain ⟨h1, h2, h3⟩ := C56_scheme res
  intro h hh
  cases hh with
  | source s hs =>
    have hs := (mem_allSources l).2 hs
    have := hr.1 s
    rw [if_pos hs] at this
    rw [h1 s _ (hp.1 s hs) (by unfold Dict.get; rw [this])]
    simp only [scoreColour, getD_shade]
  | claim c hc =>
    have hc := (mem_allClaims l).2 hc
    have := hr.2 c.1 c.2
    rw [if_pos hc] at this
    cases hb : res.belief.get? c.1 with
    | none => rw [hb] at this; cases this
    | some b =>
      rw [hb] at this
      rw [h2 c.1 c.2 b _ (hp.2 c hc) (by unfold Dict.get; rw [hb]) (by unfold Dict.get; rw [show b.get? c.2 = _ from this])]
      simp only [scoreColour, getD_shade]
  | var v hv => exact h3 v

/-- The picture of given scores. -/
noncomputable def scorePicture {L : Type} [LinearOrder L] (r : Renderer S V X L) (l : List (S × V × X))
    (p : Scores S V X) (progress : Option ℝ) : Frame :=
  (picture { r with colours := defaultScheme } l (heightOf r l) (scoreColour p) progress, r.width,
    heightOf r l)

/-- **C57** for well configured algorithms: each frame shows the dataset with the nodes
coloured by the scores of the corresponding partial result, which are finite and not
negative; with the progress from 0 to 1 if asked for. -/
theorem C57_sound {L : Type} [LinearOrder L] (hl : l ≠ []) {am : Bool}
    {f : Option (V → X → X → Option ℝ)} {d : Dataset S V X Ex}
    (hd : Dataset.mk' l am (finImp f) = .ok d) {c : AlgCfg Ex} (hc : Sound l c) (r : Renderer S V X L)
    (hlt : ∀ a b, r.lt a b = decide (a < b)) (st : Renderer.State S V X Ex)
    (fuel : Nat) (clock : Nat → Ex) (ist : IterState Ex) {rs : List (Result S V X Ex)}
    (hrun : c.runIter d fuel clock ist = .ok rs) :
    ∃ ps : List (Scores S V X), List.Forall₂ (Reports l) rs ps ∧ (∀ p ∈ ps, NonNeg l p) ∧
      (getFrames r st c d fuel clock false ist).2 = (ps.map fun p => scorePicture r l p none, none) ∧
      (rs.length ≠ 1 → ∃ xs : List ℝ, xs.length = rs.length ∧ (∀ x ∈ xs.head?, x = 0) ∧
        (∀ x ∈ xs.getLast?, x = 1) ∧ xs.Pairwise (· < ·) ∧
        (getFrames r st c d fuel clock true ist).2 =
          (List.zipWith (fun p x => scorePicture r l p (some x)) ps xs, none)) := by
  classical
  have h := sound_iter hl hd hc hrun
  choose! P hP using h
  have hcol : ∀ res ∈ rs, ∀ h, IsNode l h → (gradientScheme res).node h = .ok (scoreColour (P res) h) :=
    fun res hres => scheme_sound (hP res hres).1 (hP res hres).2
  refine ⟨rs.map P, ?_, ?_, ?_, ?_⟩
  · rw [List.forall₂_map_right_iff, List.forall₂_same]
    exact fun res hres => (hP res hres).1
  · intro p hp
    obtain ⟨res, hres, rfl⟩ := List.mem_map.1 hp
    exact (hP res hres).2
  · rw [C57_frames_plain hd r hlt st c fuel clock ist hrun hcol, List.map_map]
    rfl
  · intro hne
    obtain ⟨xs, h1, h2, h3, h4, h5, -⟩ := C57_frames hd r hlt st c fuel clock ist hrun hcol hne
    refine ⟨xs, h1, h2, h3, h4, ?_⟩
    rw [h5, List.zipWith_map_left]
    rfl

/-! ### Examples -/

/-- Sources 0 and 1 disagree about variable 0; source 1 says something about variable 1. -/
abbrev demoTriples : List (Nat × Nat × Nat) := [(0, 0, 1), (1, 0, 2), (1, 1, 5)]

theorem demo_dataset : Dataset.mk' demoTriples false (finImp none) =
    .ok (datasetOf demoTriples (finImp none)) :=
  (mk'_ok_iff _ ex_one_ne_zero false _ _).2 ⟨rfl, .inr (by simp [NoRepeats]), by simp [optImpBad, finImp]⟩

/-- All algorithms with their default parameters are sound on it. -/
theorem demo_sound : Sound demoTriples ⟨.sums, .fixed 3, some .fixed⟩ ∧
    Sound demoTriples ⟨.averageLog, .fixed 3, some .fixed⟩ ∧
    Sound demoTriples ⟨.investment (fin 1.2), .fixed 20, some .voted⟩ ∧
    Sound demoTriples ⟨.pooledInvestment (fin 1.4), .fixed 10, some .uniform⟩ ∧
    Sound demoTriples ⟨.truthFinder (fin 0.5) (fin 0.3) (fin 0.9),
      .conv (some .cosine) (fin 0.001) 200, some .fixed⟩ ∧
    Sound demoTriples ⟨.crh (fin 0.00001), .fixed 20, some .fixed⟩ ∧
    Sound demoTriples ⟨.unboundedSums, .ord 20, some .count⟩ := by
  refine ⟨by simp [Sound], ⟨by simp, 1, ?_⟩, ⟨by simp, _, rfl⟩, ⟨by simp, _, rfl⟩,
    ⟨_, _, _, rfl, rfl, rfl, by norm_num, by norm_num⟩, ⟨_, rfl, by norm_num⟩, ⟨by simp, _, rfl⟩⟩
  decide

/-- `run_iter` succeeds (C63), so the hypotheses of C57 can be met. -/
example (clock : Nat → Ex) : ∃ rs, (⟨.sums, .fixed 3, some .fixed⟩ : AlgCfg Ex).runIter
    (datasetOf demoTriples (finImp none)) 10 clock {} = .ok rs := by
  cases h : (⟨.sums, .fixed 3, some .fixed⟩ : AlgCfg Ex).runIter
      (datasetOf demoTriples (finImp none)) 10 clock {} with
  | ok rs => exact ⟨rs, rfl⟩
  | error e =>
    rcases C63_exceptions (by simp) demo_dataset demo_sound.1 (by simp [MeasureOk]) (.inr h) with
      ⟨-, ms, th, lim, h⟩ | ⟨-, h, -⟩
    · cases h
    · have := h 3 rfl
      omega

end TD
