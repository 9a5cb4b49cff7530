import Verif.Props.Escape
import Verif.Props.Ranking
/-!
# Which runs escape (C77)
-/

namespace TD
open Spec
attribute [-instance] instBEqProd

variable {R : Rounding}

/-! ### UnboundedSums -/

/-- Infinity or a number from 0 on. -/
inductive NI : FNum → Prop
  | inf : NI .pinf
  | fin (y : ℝ) (h : 0 ≤ y) : NI (.fin y)

theorem ni_rnd {x : ℝ} (h : 0 ≤ x) : NI (R.rnd x) := by
  have hn := R.notNan x
  have := nn_rnd (R := R) h
  generalize R.rnd x = y at this hn
  cases this with
  | nan => exact absurd rfl hn
  | inf => exact .inf
  | fin y h => exact .fin y h

theorem ni_add {x y : FNum} (hx : NI x) (hy : NI y) : NI (FNum.add R x y) := by
  cases hx <;> cases hy <;> simp only [FNum.add] <;> first | exact .inf | skip
  exact ni_rnd (by linarith)

theorem ni_one_mul {x : FNum} (hx : NI x) : NI (FNum.mul R (.fin 1) x) := by
  cases hx with
  | inf =>
    simp only [FNum.mul, FNum.infOf]
    rw [if_neg one_ne_zero, if_pos one_pos]; exact .inf
  | fin y h => exact ni_rnd (by linarith)

theorem ni_ofNat (n : Nat) : NI (Arith.ofNat n : FP R) := ni_rnd (Nat.cast_nonneg n)

theorem ni_at {v : Vec (FP R)} (h : All NI v) (j : Nat) : NI (v.at j) := by
  unfold Vec.at
  rw [List.getD_eq_getElem?_getD]
  cases e : v[j]? with
  | none => exact ni_ofNat 0
  | some x => exact h x (List.mem_of_getElem? e)

theorem foldl_ni {β : Type} (L : List β) (g : β → FP R) (a : FP R) (ha : NI a) (hg : ∀ b ∈ L, NI (g b)) :
    NI (L.foldl (fun (acc : FP R) b => (acc +. g b : FP R)) a : FP R) := by
  induction L generalizing a with
  | nil => exact ha
  | cons b L ih =>
    simp only [List.foldl_cons]
    exact ih _ (ni_add ha (hg b (by simp))) (fun c hc => hg c (by simp [hc]))

theorem ni_mulVec {M : Mat (FP R)} (hM : M.All (· = .fin 1)) {v : Vec (FP R)} (hv : All NI v) :
    All NI (M.mulVec v) := by
  intro y hy
  obtain ⟨r, hr, rfl⟩ := List.mem_map.1 hy
  refine foldl_ni r (fun e => e.2 *. v.at e.1) _ (ni_ofNat 0) fun e he => ?_
  have h1 := hM r hr e he
  have : e.2 *. v.at e.1 = FNum.mul R (.fin 1) (v.at e.1) := by
    show FNum.mul R e.2 _ = _
    rw [h1]
  rw [this]
  exact ni_one_mul (ni_at hv e.1)

theorem ni_rescale {v w : Vec (FP R)} (hv : All NI v) (h : rescale v = .ok w) : All NI w := by
  simp only [rescale, bind, Except.bind, pure, Except.pure] at h
  split at h
  · cases h
  · rename_i mx hmx
    have key : ∀ y m x : FNum, NI y → FNum.lt y m = true → NI x → y ≠ .fin 0 → NI (FNum.div R x y) := by
      intro y m x hy hlt hx h0
      cases hy with
      | inf =>
        cases m <;> simp [FNum.lt, FNum.toEReal] at hlt
      | fin y hy =>
        have hy' : 0 < y := lt_of_le_of_ne hy (fun h => h0 (by rw [← h]))
        cases hx with
        | inf =>
          simp only [FNum.div]
          rw [if_neg (by linarith)]; exact .inf
        | fin x hx =>
          simp only [FNum.div]
          rw [if_neg hy'.ne']
          exact ni_rnd (div_nonneg hx hy)
    cases h
    split
    · rename_i hlt
      refine all_map hv fun x hx => key _ _ _ (ni_ofNat 1000) hlt hx ?_
      have := ge1_rnd (R := R) (x := ((1000 : Nat) : ℝ)) (by norm_num)
      intro h
      have e : R.rnd ((1000 : Nat) : ℝ) = .fin 0 := h
      rw [e] at this
      cases this with
      | fin y h => linarith
    · exact hv

section
variable {S V X : Type} [DecidableEq S] [DecidableEq V] [DecidableEq X] (l : List (S × V × X))
  (f : Option (V → X → X → Option (FP R)))

theorem sc_one : (matsOf l f).sc.All (· = .fin 1) := by
  refine Mat.all_ofFn _ _ _ fun _ _ x h => ?_
  unfold oneIf at h
  split at h
  · cases h; exact FP.one_eq
  · cases h

theorem usums_ni {t b : Vec (FP R)} {s : Step (FP R)} (hb : All NI b)
    (h : usumsBody (matsOf l f) t b = .ok (some s)) :
    s.cmp1 = t ∧ All NI s.cmp2 ∧ All NI s.trust ∧ All NI s.belief := by
  simp only [usumsBody, bind, Except.bind, pure, Except.pure] at h
  have h1 := ni_mulVec (sc_one l f) hb
  have h2 := ni_mulVec (sc_one l f).T h1
  split at h
  · cases h
  · rename_i v hv
    split at h
    · cases h
    · rename_i w hw
      cases h
      exact ⟨rfl, h1, ni_rescale h1 hv, ni_rescale h2 hw⟩

theorem steps_ni {it : IterCfg (FP R)} {st st' : IterState (FP R)} {t b t' b' : Vec (FP R)} {n : Nat}
    {L : List (LogEntry (FP R))}
    (h : Steps it (usumsBody (matsOf l f)) st t b n st' t' b' L) (ht : All NI t) (hb : All NI b) :
    All NI t' ∧ All NI b' := by
  induction h with
  | refl => exact ⟨ht, hb⟩
  | cons _ hbody _ _ ih =>
    obtain ⟨-, -, h1, h2⟩ := usums_ni l f hb hbody
    exact ih h1 h2

theorem ranking_ni {v : Vec (FP R)} (h : All NI v) : ∃ rk, rankingVector v = .ok rk := by
  refine ⟨_, rankingVector_eq (keyed_of_not_nan (R := R) (v := v) ?_)⟩
  rintro x hx rfl
  cases h _ hx

theorem prior_ni (hl : l ≠ []) {p : Prior} {b : Vec (FP R)}
    (hp : p ≠ .voted ∨ ∃ N, Precise R N ∧ 2 ≤ N ∧ (sources l).length * (claims l).length ≤ N)
    (h : priorBeliefs (some p) (matsOf l f) = .ok b) : All NI b := by
  have hcnt : All NI (sourceCounts (matsOf l f)) := ni_mulVec (sc_one l f).T (all_replicate (ni_ofNat 1) _)
  rcases hp with hp | ⟨N, hN, h2, hS⟩
  · cases p with
    | fixed => cases h; exact all_replicate (ni_rnd (by norm_num)) _
    | voted => exact absurd rfl hp
    | count => cases h; exact hcnt
    | uniform =>
      cases h
      refine all_map (P := NI) (ni_mulVec ?_ (all_replicate (ni_ofNat 1) _)) fun x hx => ?_
      · refine Mat.all_ofFn _ _ _ fun _ _ x h => ?_
        unfold oneIf at h
        split at h
        · cases h; exact FP.one_eq
        · cases h
      · rw [FP.one_eq]
        have key : ∀ x : FNum, NI x → NI (FNum.div R (.fin 1) x) := by
          intro x hx
          cases hx with
          | inf => exact .fin 0 le_rfl
          | fin y h =>
            simp only [FNum.div]
            split
            · rw [if_neg one_ne_zero, FNum.infOf, if_pos one_pos]; exact .inf
            · exact ni_rnd (by positivity)
        exact key x hx
  · obtain ⟨b', h1, h2⟩ := prior_start l f hN hl h2 hS p
    rw [h] at h1
    cases h1
    obtain ⟨B, rfl, hB, -⟩ := h2
    intro x hx
    obtain ⟨c, hc, rfl⟩ := List.mem_map.1 hx
    exact .fin _ (hB c hc).2.1

/-- **C77.** UnboundedSums on a non-empty dataset, with a valid prior and iterator, under
every rounding: it raises `ConvergenceError` from a `ConvergenceIterator`, or `AttributeError`
with an iterator that has no ranking vectors, and nothing else.  (With voted priors numbers up
to sources times claims must be exact: otherwise the prior can be inf / inf.) -/
theorem C77_usums (hl : l ≠ []) (am : Bool) (d : Dataset S V X (FP R)) (hd : Dataset.mk' l am f = .ok d)
    (it : IterCfg (FP R)) (p : Prior)
    (hp : p ≠ .voted ∨ ∃ N, Precise R N ∧ 2 ≤ N ∧ (sources l).length * (claims l).length ≤ N)
    (hm : ∀ th lim, it ≠ .conv none th lim) (fuel : Nat) (clock : Nat → FP R) (st : IterState (FP R)) (e : PyErr)
    (hr : AlgCfg.run ⟨.unboundedSums, it, some p⟩ d fuel clock st = .error e ∨
      AlgCfg.runIter ⟨.unboundedSums, it, some p⟩ d fuel clock st = .error e) :
    (e = .convergence ∧ ∃ ms th lim, it = .conv ms th lim) ∨
    (e = .attributeError ∧ ∀ n, it ≠ .ord n) ∨
    (e = .diverge ∧ (∀ n : Int, it = .fixed n → (fuel : Int) ≤ max n 0) ∧
      ∀ ms th n, it = .conv ms th n → (fuel : Int) ≤ max n 0) := by
  obtain rfl := ((mk'_ok_iff l (fp_one_ne_zero R) am f d).1 hd).1
  have hx : AlgCfg.exec ⟨.unboundedSums, it, some p⟩ (matsOf l f) fuel st = .error e := by
    rw [run_eq, runIter_eq] at hr
    rcases hr with h | h <;> split at h <;> first | (cases h; assumption) | cases h
  have hC : (matsOf l f).numClaims ≠ 0 := fun h0 => hl ((numClaims_zero l f).1 h0)
  have hS : (matsOf l f).numSources ≠ 0 := fun h0 => sources_ne hl (List.length_eq_zero_iff.1 h0)
  have hwf := matsOf_wf l f
  rw [exec_eq _ _ _ _ hC] at hx
  obtain ⟨b0, hb⟩ : ∃ b, priorBeliefs (some p) (matsOf l f) = .ok b := by
    cases p <;> exact ⟨_, rfl⟩
  have hi : AlgCfg.init ⟨.unboundedSums, it, some p⟩ (matsOf l f) = .ok (zeros (matsOf l f).numSources, b0) := by
    simp only [AlgCfg.init, hb, bind, Except.bind, pure, Except.pure]
  have h0 := init_sized hwf hi
  have hb0 := prior_ni l f hl hp hb
  have ht0 : All NI (zeros (matsOf l f).numSources : Vec (FP R)) := all_replicate (ni_ofNat 0) _
  rw [hi] at hx
  simp only at hx
  split at hx
  · rename_i e' hlo
    cases hx
    rcases (loop_error_iff _ _ _ _ _ _).1 hlo with ⟨rfl, st', t', b', L, hs⟩ | ⟨n, st', t', b', L, -, hs, hr⟩
    · refine .inr (.inr ⟨rfl, ?_, ?_⟩)
      · rintro n rfl
        rcases lt_or_ge n 0 with h0 | h0
        · cases hs with
          | refl => simp
          | cons hf =>
            simp only [IterCfg.finished, Except.ok.injEq, decide_eq_false_iff_not] at hf
            exact absurd (show ((0 : Nat) : Int) ≥ n by omega) hf
        · obtain ⟨N, rfl⟩ := Int.eq_ofNat_of_zero_le h0
          have := fixed_steps_le hs
          omega
      · rintro ms th n rfl
        have := conv_steps_le hs
        omega
    · have hsz := (Steps.sized (c := ⟨.unboundedSums, it, some p⟩) hwf hs h0).1
      obtain ⟨hnt, hnb⟩ := steps_ni l f hs ht0 hb0
      rcases hr with hr | ⟨-, hr | ⟨s, hb, hr⟩⟩
      · exact .inl (finished_error hr)
      · obtain ⟨s, hs'⟩ := body_total (k := .unboundedSums) hwf hS hC hsz
        rw [hs'] at hr; cases hr
      · exfalso
        by_cases ho : ∃ n, it = .ord n
        · obtain ⟨n, rfl⟩ := ho
          obtain ⟨e1, e2, -, -⟩ := usums_ni l f hnb hb
          rw [← e1] at hnt
          obtain ⟨r1, hr1⟩ := ranking_ni hnt
          obtain ⟨r2, hr2⟩ := ranking_ni e2
          simp only [IterCfg.compare, hr1, hr2, bind, Except.bind, pure, Except.pure] at hr
          cases hr
        · rw [not_exists] at ho
          obtain ⟨h1, h2⟩ := body_cmp hwf hsz hb
          obtain ⟨st'', hst⟩ := compare_total ho hm (st := st') h1 h2 hS
          rw [hst] at hr; cases hr
  · rename_i E hlo
    obtain ⟨n, L, -, hs, -⟩ := (loop_ok_iff _ _ _ _ _ _).1 hlo
    obtain ⟨hnt, hnb⟩ := steps_ni l f hs ht0 hb0
    split at hx
    · rename_i hf
      cases hx
      cases it with
      | ord n =>
        obtain ⟨r1, hr1⟩ := ranking_ni hnt
        obtain ⟨r2, hr2⟩ := ranking_ni hnb
        simp only [AlgCfg.finish, hr1, hr2, bind, Except.bind, pure, Except.pure] at hf
        cases hf
      | fixed n => cases hf; exact .inr (.inl ⟨rfl, nofun⟩)
      | conv ms th n => cases hf; exact .inr (.inl ⟨rfl, nofun⟩)
    · cases hx
end

/-- **C77.** What the `run` case of `Escapes` amounts to: the label is "usums"; either the client
gave an iterator and the exception is `AttributeError`, or it gave none and the run does not end
within `env.fuel` loop tests, or numbers are not precise and the priors are "voted". -/
theorem C77_run {X : Type} [DecidableEq X] {env : Env X R} (henv : WebEnvOk env) {text : Option Text}
    {ps : Dict Text (PVal (FP R))} (hps : ParamsMean env.digit env.parseFloat text ps)
    {l : List (Nat × Nat × X)} {d : Dataset Nat Nat X (FP R)} (hd : Dataset.mk' l false none = .ok d)
    {c : AlgLabel} {a : AnyAlg (FP R)} (ha : Constructed ps c a) {clock : Nat → FP R} {e : PyErr}
    (hrun : a.run d env.fuel clock = .error e) (h1 : e ≠ .convergence) (h2 : e ≠ .emptyDataset) :
    c = .usums ∧
    ((e = .attributeError ∧ ∃ it, ps.get? "iterator".toList = some (.iterator it)) ∨
     (e = .diverge ∧ ps.get? "iterator".toList = none) ∨
     (ps.get? "priors".toList = some (.prior .voted) ∧
       ∀ N, Precise R N → N < (sources l).length * (claims l).length ∨ N < 2)) := by
  have hl : l ≠ [] := by
    rintro rfl
    have : a.run d env.fuel clock = .error .emptyDataset := by
      cases a with
      | voting => exact (C09_empty_dataset_voting (fp_one_ne_zero R) [] false none d hd clock).1.2 rfl
      | iter cfg => exact (C09_empty_dataset (fp_one_ne_zero R) [] false none d hd cfg env.fuel clock {}).1.2 rfl
    rw [hrun] at this
    cases this
    exact h2 rfl
  cases a with
  | voting =>
    obtain ⟨r, hr⟩ := (C09_empty_dataset_voting (fp_one_ne_zero R) l false none d hd clock).2 hl
    have : votingRun d clock = .error e := hrun
    rw [hr] at this
    cases this
  | iter cfg =>
    have hrun' : cfg.run d env.fuel clock = .error e := hrun
    obtain ⟨i1, i2, i3, i4⟩ := constructed_iter hps ha
    by_cases hk : c = .usums
    · subst hk
      refine ⟨rfl, ?_⟩
      cases ha with
      | usums it p g1 g2 =>
        obtain ⟨q, rfl, hq⟩ : ∃ q, p = some q ∧
            (q ≠ .voted ∨ ps.get? "priors".toList = some (.prior .voted)) := by
          rcases g2 with ⟨q, h, rfl⟩ | ⟨-, rfl⟩
          · refine ⟨q, rfl, ?_⟩
            by_cases hv : q = .voted
            · subst hv; exact .inr h
            · exact .inl hv
          · exact ⟨_, rfl, .inl nofun⟩
        by_cases hN : q ≠ .voted ∨ ∃ N, Precise R N ∧ 2 ≤ N ∧ (sources l).length * (claims l).length ≤ N
        · rcases C77_usums l none hl false d hd it q hN i1 env.fuel clock {} e (.inl hrun') with
            ⟨h, -⟩ | ⟨h, h'⟩ | ⟨h, h3, h4⟩
          · exact absurd h h1
          · refine .inl ⟨h, ?_⟩
            rcases g1 with g1 | ⟨-, g1⟩
            · exact ⟨_, g1⟩
            · exact absurd g1 (h' _)
          · refine .inr (.inl ⟨h, ?_⟩)
            have := henv.fuel
            cases it with
            | fixed n =>
              have := h3 n rfl
              have := i2 n rfl
              omega
            | conv ms th n =>
              have := h4 ms th n rfl
              have := i3 ms th n rfl
              omega
            | ord n =>
              rcases g1 with g1 | ⟨g1, -⟩
              · obtain ⟨t, ht⟩ := params_mean env.digit env.parseFloat hps g1
                cases ht with
                | iterator _ _ h => cases h
              · exact g1
        · rw [not_or, not_not] at hN
          obtain ⟨rfl, hN⟩ := hN
          refine .inr (.inr ⟨hq.resolve_left (fun h => h rfl), fun N hP => ?_⟩)
          by_contra hc
          rw [not_or, not_lt, not_lt] at hc
          exact hN ⟨N, hP, hc.2, hc.1⟩
    · exfalso
      have hp : cfg.priors ≠ none ∧ cfg.kind ≠ .unboundedSums := by
        cases ha with
        | usums => exact absurd rfl hk
        | _ => 
          rename_i h
          rcases h with ⟨q, -, rfl⟩ | ⟨-, rfl⟩ <;> exact ⟨nofun, nofun⟩
      rcases C76_exceptions (fp_one_ne_zero R) l hl false none d hd cfg hp.1 hp.2
        (fun n h => hk (i4 n h)) i1 env.fuel clock {} e (.inl hrun') with ⟨h, -⟩ | ⟨-, h3, h4⟩
      · exact h1 h
      · have := henv.fuel
        cases hit : cfg.iterator with
        | fixed n =>
          have := h3 n hit
          have := i2 n hit
          omega
        | conv ms th n =>
          have := h4 ms th n hit
          have := i3 ms th n hit
          omega
        | ord n => exact hk (i4 n hit)

/-- **C77.** A score that is NaN or in `[0, 1]` has no colour only if it is NaN, and then the
exception is `ValueError`. -/
theorem C77_unit (hR : R.Nine) {x : FP R} (hx : UnitOrNan x) (e : PyErr) :
    Undrawable x e ↔ x = FP.nan ∧ e = .valueError := by
  have h9 : (Arith.ofNat 9 : FP R) = FP.fin 9 := by
    show R.rnd ((9 : Nat) : ℝ) = FNum.fin 9
    simpa using hR.nine
  rcases hx with rfl | ⟨y, rfl, h0, h1⟩
  · have hn : (FP.nan : FP R) *. Arith.ofNat 9 = FP.nan := by rw [h9]; rfl
    constructor
    · rintro (h | h | ⟨y, h, -⟩)
      · exact ⟨rfl, rfl⟩
      · rw [hn] at h
        rcases h with h | h <;> cases h
      · rw [hn] at h; cases h
    · rintro ⟨-, rfl⟩; exact .nan hn
  · obtain ⟨z, hz, -, hz0, hz9⟩ := rnd_between (R := R) (rep_zero) (hR.nine : Rep R 9) (x := y * 9)
      (by linarith) (by linarith)
    have hm : (FP.fin y : FP R) *. Arith.ofNat 9 = FP.fin z := by rw [h9, FP.mul_fin]; exact hz
    constructor
    · rintro (h | h | ⟨w, h, hw⟩)
      · rw [hm] at h; cases h
      · rw [hm] at h
        rcases h with h | h <;> cases h
      · rw [hm] at h
        have := FP.fin_inj.1 h
        linarith
    · rintro ⟨h, -⟩; cases h

/-- **C77.** A score that is NaN or not negative never raises `IndexError`. -/
theorem C77_nonneg {x : FP R} (hx : NonnegOrNan x) : ¬ Undrawable x .indexError := by
  intro h
  cases h with
  | low y h hy =>
    have hm : NN (FNum.mul R x (Arith.ofNat 9 : FP R)) := nn_mul ((nn_iff x).1 hx) (nn_ofNat 9)
    have h' : FNum.mul R x (Arith.ofNat 9 : FP R) = .fin y := h
    rw [h'] at hm
    cases hm with
    | fin _ h0 => linarith

/-! ### Examples -/

/-- A request that escapes: the earlier result is a JSON array. -/
example : webRun demoEnv { demoRequest with previousResults := some "[]".toList } = .error .typeError ∧
    Unanswered demoEnv { demoRequest with previousResults := some "[]".toList } .typeError := by
  have h : webRun demoEnv { demoRequest with previousResults := some "[]".toList } = .error .typeError :=
    C52_unhandled_previous demoEnv_ok { demoRequest with previousResults := some "[]".toList } _ rfl _ rfl
      (by decide) _ demo_params _ demo_csv (by decide) _ rfl _ demo_arr (by intro fs h; cases h)
  exact ⟨h, (C77_escapes demoEnv_ok _).1 _ h⟩

/-- A request that is answered, and so does not escape. -/
example : ∀ e, ¬ Unanswered demoEnv demoRequest e := by
  intro e he
  obtain ⟨e', h⟩ := (C77_escapes demoEnv_ok demoRequest).2 ⟨e, he⟩
  obtain ⟨_, resp, -, h', -⟩ := demo_answer
  rw [h'] at h
  cases h

/-- A score of 1/2 has a colour, -2 has none. -/
example : (∀ e, ¬ Undrawable (Ex.fin (1 / 2)) e) ∧ Undrawable (Ex.fin (-2)) .indexError := by
  refine ⟨fun e h => ?_, .low (-2 * 9) ?_ (by norm_num)⟩
  · have := (C77_unit exact_nine (.inr ⟨1 / 2, rfl, by norm_num, by norm_num⟩) e).1 h
    cases this.1
  · show FNum.fin (-2 * ((9 : Nat) : ℝ)) = FNum.fin (-2 * 9)
    norm_num

section
variable {α : Type} [Arith α]

theorem operand_asNumber (j : WJson α) : (asNumber j).operand = j.operand := by
  rcases j with _ | (_ | _) | _ | _ | _ | _ <;> rfl

theorem minus_asNumber (y x : WJson α) : y.minus (asNumber x) = y.minus x := by
  unfold WJson.minus; rw [operand_asNumber]

theorem rawDiffDict_asNumber (ord : List Text → List Text) (d1 d2 : Dict Text (WJson α)) :
    rawDiffDict ord (d1.map fun p => (p.1, asNumber p.2)) d2 = rawDiffDict ord d1 d2 := by
  unfold rawDiffDict
  rw [keys_mapVal]
  congr 1
  funext acc k
  rw [get_mapVal]
  cases d2.get k with
  | error e => rfl
  | ok y =>
    cases d1.get k with
    | error e => rfl
    | ok x =>
      show (y.minus (asNumber x)).bind _ = (y.minus x).bind _
      rw [minus_asNumber]

theorem rawDiffBelief_asNumber (ord : List Text → List Text) (b1 b2 : Dict Text (WJson α)) :
    rawDiffBelief ord (b1.map fun p => (p.1, inObject asNumber p.2)) b2 = rawDiffBelief ord b1 b2 := by
  unfold rawDiffBelief
  rw [keys_mapVal]
  congr 1
  funext acc k
  rw [get_mapVal]
  cases b1.get k with
  | error e => rfl
  | ok x =>
    cases x with
    | obj d =>
      simp only [Except.map, inObject, WJson.dict, bind, Except.bind, rawDiffDict_asNumber]
    | _ => rfl

/-- **C77.** In "previous_results", `true` and `false` count as the numbers 1 and 0. -/
theorem C77_booleans (ord : List Text → List Text) (r1 r2 : RawResult α) :
    rawDiff ord
      { trust := inObject asNumber r1.trust
        belief := inObject (inObject asNumber) r1.belief
        time := asNumber r1.time
        iterations := asNumber r1.iterations } r2 = rawDiff ord r1 r2 := by
  have hi : rawDiffIterations (asNumber r1.iterations) r2.iterations =
      rawDiffIterations r1.iterations r2.iterations := by
    unfold rawDiffIterations
    rw [minus_asNumber]
    rcases r1.iterations with _ | (_ | _) | _ | _ | _ | _ <;> rfl
  unfold rawDiff
  rw [minus_asNumber, hi]
  obtain ⟨t, b, x, i⟩ := r1
  cases t with
  | obj t =>
    cases b with
    | obj b =>
      have e1 : ∀ d : Dict Text (WJson α), inObject asNumber (.obj d) = .obj (d.map fun p => (p.1, asNumber p.2)) :=
        fun _ => rfl
      have e2 : inObject (inObject asNumber) (.obj b) = .obj (b.map fun p => (p.1, inObject asNumber p.2)) := rfl
      have e3 : ∀ d : Dict Text (WJson α), (WJson.obj d).dict = .ok d := fun _ => rfl
      simp only [e1, e2, e3, bind, Except.bind, rawDiffDict_asNumber, rawDiffBelief_asNumber]
    | _ => simp only [inObject, WJson.dict, bind, Except.bind, rawDiffDict_asNumber]
  | _ => rfl

example : (inObject asNumber (.obj [("0".toList, .bool true)]) : WJson Ex) =
    .obj [("0".toList, .num (Arith.ofNat 1))] := rfl

end

end TD
