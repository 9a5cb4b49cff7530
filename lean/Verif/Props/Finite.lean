import Verif.Lemmas.Finite
import Verif.Lemmas.CrhDouble
import Verif.Props.Range
import Verif.Props.Stopping
import Verif.Props.Rounded
import Verif.Spec.Double
/-!
# AverageLog and CRH in double precision (C83)
-/

namespace TD
open Spec
attribute [-instance] instBEqProd

variable {S V X : Type} [DecidableEq S] [DecidableEq V] [DecidableEq X]

section
variable {α : Type} [Arith α]

/-- An invariant of the beliefs, and what every iteration guarantees. -/
theorem inv_steps {body : Vec α → Vec α → Except PyErr (Option (Step α))} {I : Vec α → Prop}
    {G : Vec α → Vec α → Prop}
    (hbody : ∀ t b, I b → ∃ s, body t b = .ok (some s) ∧ G s.trust s.belief ∧ I s.belief)
    {it : IterCfg α} {st : IterState α} {t b : Vec α} {n : Nat} {st' t' b' L}
    (h : Steps it body st t b n st' t' b' L) (hb : I b) :
    (1 ≤ n → G t' b') ∧ ∀ e ∈ L, G e.trust e.belief := by
  induction h with
  | refl => exact ⟨fun h => absurd h (by omega), by simp⟩
  | cons hfin hbd hcmp hrest ih =>
    obtain ⟨s, hs, hg, hi⟩ := hbody _ _ hb
    rw [hs] at hbd
    cases hbd
    obtain ⟨h1, h2⟩ := ih hi
    refine ⟨fun _ => ?_, ?_⟩
    · cases hrest with
      | refl => exact hg
      | cons => exact h1 (by omega)
    · intro e he
      rcases List.mem_cons.1 he with rfl | he
      · exact hg
      · exact h2 e he

theorem inv_fixed {body : Vec α → Vec α → Except PyErr (Option (Step α))} {I : Vec α → Prop}
    {G : Vec α → Vec α → Prop}
    (hbody : ∀ t b, I b → ∃ s, body t b = .ok (some s) ∧ G s.trust s.belief ∧ I s.belief)
    (K n : Nat) : ∀ (st : IterState α) (t b : Vec α), I b → st.itCount + n ≤ K →
      ∃ st' t' b' L, Steps (.fixed K) body st t b n st' t' b' L := by
  induction n with
  | zero => intro st t b _ _; exact ⟨st, t, b, [], .refl _ _ _⟩
  | succ n ih =>
    intro st t b hb hn
    obtain ⟨s, hs, -, hi⟩ := hbody t b hb
    obtain ⟨st', t', b', L, h⟩ := ih { st with itCount := st.itCount + 1 } s.trust s.belief hi (by simp; omega)
    refine ⟨st', t', b', _, .cons ?_ hs rfl h⟩
    simp only [IterCfg.finished, Except.ok.injEq, decide_eq_false_iff_not]; omega

/-- What runs and partial results satisfy if every iteration guarantees `G`. -/
theorem inv_runs (h10 : Arith.eq (Arith.ofNat 1 : α) (Arith.ofNat 0) = false)
    {l : List (S × V × X)} {am : Bool} {f : Option (V → X → X → Option α)} {d : Dataset S V X α}
    (h : Dataset.mk' l am f = .ok d) {c : AlgCfg α} (hk : c.kind ≠ .unboundedSums) {I : Vec α → Prop}
    {G : Vec α → Vec α → Prop} {P : Result S V X α → Prop}
    (hinit : l ≠ [] → ∃ t b, c.init (matsOf l f) = .ok (t, b) ∧ I b)
    (hbody : l ≠ [] → ∀ t b, I b → ∃ s, c.kind.body (matsOf l f) t b = .ok (some s) ∧ G s.trust s.belief ∧ I s.belief)
    (hP : ∀ t b time it, G t b → P (resultOf l t b time it)) (fuel : Nat) (clock : Nat → α) (st : IterState α) :
    (∀ r, c.run d fuel clock st = .ok r → ∀ k, r.iterations = some k → 1 ≤ k → P r) ∧
    (∀ rs, c.runIter d fuel clock st = .ok rs → ∀ r ∈ rs, ∀ k, r.iterations = some k → 1 ≤ k → P r) ∧
    (∀ K : Nat, c.iterator = .fixed K → l ≠ [] → K < fuel →
      ∃ r, c.run d fuel clock st = .ok r ∧ r.iterations = some K) := by
  obtain rfl := ((mk'_ok_iff l h10 am f d).1 h).1
  have key : ∀ out, c.exec (matsOf l f) fuel st = .ok out → (1 ≤ out.iterations → G out.trust out.belief) ∧
      ∀ e ∈ out.log, 1 ≤ e.iterations → G e.trust e.belief := by
    intro out he
    obtain ⟨h0, t0, b0, n, st', t, b, L, hi, -, hs, -, hf, hit, hlog⟩ := (exec_ok_iff _ _ _ _ _).1 he
    have hl : l ≠ [] := fun e => h0 ((numClaims_zero l f).2 e)
    obtain ⟨t1, b1, hi1, hI⟩ := hinit hl
    rw [hi1] at hi
    cases hi
    obtain ⟨h1, h2⟩ := inv_steps (hbody hl) hs hI
    have hfin : c.finish t b = .ok (out.trust, out.belief) := hf
    rw [finish_other hk] at hfin
    cases hfin
    refine ⟨fun hn => h1 (by omega), fun e he' h1e => ?_⟩
    rw [hlog] at he'
    rcases List.mem_append.1 he' with he' | he'
    · unfold initLog at he'
      split at he'
      · rw [List.mem_singleton.1 he'] at h1e
        exact absurd h1e (by simp)
      · cases he'
    · exact h2 e he'
  refine ⟨fun r hr k hk1 h1 => ?_, fun rs hr r hmem k hk1 h1 => ?_, fun K hK hl hfuel => ?_⟩
  · rw [run_eq] at hr
    cases he : c.exec (matsOf l f) fuel st with
    | error e => rw [he] at hr; cases hr
    | ok out =>
      rw [he] at hr
      cases hr
      have : out.iterations = k := Option.some.inj hk1
      exact hP _ _ _ _ ((key out he).1 (by omega))
  · rw [runIter_eq] at hr
    cases he : c.exec (matsOf l f) fuel st with
    | error e => rw [he] at hr; cases hr
    | ok out =>
      rw [he] at hr
      cases hr
      obtain ⟨p, hp, rfl⟩ := List.mem_map.1 hmem
      have hp' : p.2 ∈ out.log := by
        have := List.mem_map_of_mem (f := Prod.snd) hp
        rwa [enum_map_snd] at this
      have : p.2.iterations = k := Option.some.inj hk1
      exact hP _ _ _ _ ((key out he).2 _ hp' (by omega))
  · obtain ⟨t, b, hi, hI⟩ := hinit hl
    obtain ⟨st', t', b', L, hs⟩ := inv_fixed (hbody hl) K K {} t b hI (by simp)
    have hex : c.exec (matsOf l f) fuel st = .ok ⟨t', b', K, initLog c t b ++ L⟩ := by
      rw [exec_ok_iff]
      refine ⟨fun e => hl ((numClaims_zero l f).1 e), _, _, K, st', t', b', L, hi, hfuel, hK ▸ hs, .inl ?_,
        finish_other hk _ _, rfl, rfl⟩
      have := hs.itCount
      rw [hK]
      simp only [IterCfg.finished, Except.ok.injEq, decide_eq_true_eq]
      rw [this]; simp
    exact ⟨_, by rw [run_eq, hex], rfl⟩

end

/-! ### AverageLog -/

theorem avlog_init (l : List (S × V × X)) (f : Option (V → X → X → Option (FP (.binary64 ω)))) (hl : l ≠ [])
    (hm : ∃ s, 2 ≤ (claimsOf l s).card)
    (hle : (sources l).length * (claims l).length ≤ 2 ^ 53) (it : IterCfg (FP (.binary64 ω))) (p : Prior) :
    ∃ t b, (⟨.averageLog, it, some p⟩ : AlgCfg (FP (.binary64 ω))).init (matsOf l f) = .ok (t, b) ∧
      AvStart l (sources l).length b := by
  obtain ⟨b, hb, B, hB, h1, h2⟩ := prior_begin l f C31_binary64 hl (by norm_num) hle p
  refine ⟨zeros (matsOf l f).numSources, b, by simp only [AlgCfg.init, hb, bind, Except.bind, pure, Except.pure], B, hB,
    fun c hc => ⟨(h1 c hc).1, (h1 c hc).2.1.le, (h1 c hc).2.2⟩, ?_⟩
  obtain ⟨s, hs⟩ := hm
  obtain ⟨c, hc⟩ := Finset.card_pos.1 (by omega : 0 < (claimsOf l s).card)
  refine ⟨s, c, (mem_claimsOf l).1 hc, hs, ?_⟩
  have hz : Rep (.binary64 ω) (2 ^ (-53 : ℤ)) := rep64_pow (by norm_num) (by norm_num)
  have e : (1 : ℝ) / ((2 ^ 53 : Nat) : ℝ) = 2 ^ (-53 : ℤ) := by rw [zpow_neg, one_div]; norm_num
  refine le_trans (zpow_le_zpow_right₀ (by norm_num) (by norm_num)) (h2 (2 ^ (-53 : ℤ)) (by rw [e]; exact hz)
    (zpow_le_one_of_nonpos₀ (by norm_num) (by norm_num)) c (mem_claims_of_claimsOf l hc))

/-- **C83.** If a source makes at least two claims, AverageLog in double precision never shows
NaN: after at least one iteration all scores are finite and in `[0, 1]`, and the largest trust
and the largest belief are exactly 1; likewise the partial results; with a fixed number of
iterations the run succeeds. -/
theorem C83_average_log (l : List (S × V × X)) (am : Bool) (f : Option (V → X → X → Option (FP (.binary64 ω))))
    (d : Dataset S V X (FP (.binary64 ω))) (h : Dataset.mk' l am f = .ok d)
    (hsize : (allSources l).card ^ 2 * (allClaims l).card ≤ 2 ^ 53)
    (hm : ∃ s, 2 ≤ (claimsOf l s).card) (it : IterCfg (FP (.binary64 ω))) (p : Prior)
    (fuel : Nat) (clock : Nat → FP (.binary64 ω)) (st : IterState (FP (.binary64 ω))) :
    (∀ r, (⟨.averageLog, it, some p⟩ : AlgCfg (FP (.binary64 ω))).run d fuel clock st = .ok r →
      ∀ k, r.iterations = some k → 1 ≤ k →
      Complete l r ∧ Within r (fun y => 0 ≤ y ∧ y ≤ 1) ∧ OneAttained r) ∧
    (∀ rs, (⟨.averageLog, it, some p⟩ : AlgCfg (FP (.binary64 ω))).runIter d fuel clock st = .ok rs →
      ∀ r ∈ rs, ∀ k, r.iterations = some k → 1 ≤ k →
      Complete l r ∧ Within r (fun y => 0 ≤ y ∧ y ≤ 1) ∧ OneAttained r) ∧
    (∀ K : Nat, it = .fixed K → K < fuel →
      ∃ r, (⟨.averageLog, it, some p⟩ : AlgCfg (FP (.binary64 ω))).run d fuel clock st = .ok r ∧
        r.iterations = some K) := by
  have hsz := sums_size hsize
  have hl : l ≠ [] := by
    rintro rfl
    obtain ⟨s, hs⟩ := hm
    obtain ⟨c, hc⟩ := Finset.card_pos.1 (by omega : 0 < (claimsOf ([] : List (S × V × X)) s).card)
    cases mem_claims_of_claimsOf _ hc
  have hS1 : 1 ≤ (sources l).length := List.length_pos_iff.2 (sources_ne hl)
  have hC1 : 1 ≤ (claims l).length := List.length_pos_iff.2 (claims_ne hl)
  have hCS : (claims l).length * (sources l).length ≤ 2 ^ 53 := (Nat.le_mul_of_pos_left _ hS1).trans hsz
  have hC : (claims l).length ≤ 2 ^ 53 := (Nat.le_mul_of_pos_right _ hS1).trans hCS
  have hS : (sources l).length ≤ 2 ^ 53 := (Nat.le_mul_of_pos_left _ hC1).trans hCS
  obtain ⟨h1, h2, h3⟩ := inv_runs (c := ⟨.averageLog, it, some p⟩) one_ne_zero_fp h nofun
    (I := fun b => ∃ M ≤ (sources l).length, AvStart l M b) (G := Normal l)
    (P := fun r => Complete l r ∧ Within r (fun y => 0 ≤ y ∧ y ≤ 1) ∧ OneAttained r)
    (fun hl => by
      obtain ⟨t, b, hi, hb⟩ := avlog_init l f hl hm (by rw [mul_comm]; exact hCS) it p
      exact ⟨t, b, hi, _, le_rfl, hb⟩)
    (fun hl t b hb => by
      obtain ⟨M, hM, hb⟩ := hb
      have hb1 := Nat.mul_le_mul_left (claims l).length hM
      obtain ⟨s, hs, -, -, hn, ha⟩ := avlog_normal l f ((Nat.mul_le_mul_left _ hb1).trans hsz) (hb1.trans hCS) hC hS t hb
      exact ⟨s, hs, hn, 1, hS1, ha⟩)
    (fun t b time it hn => hn.result _ _) fuel clock st
  exact ⟨h1, h2, fun K hK => h3 K hK hl⟩

/-! When every source makes a single claim. -/

section
variable {R : Rounding} {N : Nat}

theorem rowDot_nans {B : Type} {bs : List B} {g : B → Option (FP R)} {b : B} (hb : b ∈ bs) (hg : g b = some (FP.fin 1)) :
    rowDot bs g (fun _ => (FP.nan : FP R)) = FP.nan := by
  have keep : ∀ L : List B, L.foldl (rowStep g fun _ => (FP.nan : FP R)) FP.nan = FP.nan := by
    intro L
    induction L with
    | nil => rfl
    | cons c L ih =>
      rw [List.foldl_cons]
      have : rowStep g (fun _ => (FP.nan : FP R)) FP.nan c = FP.nan := by
        unfold rowStep
        cases g c <;> rfl
      rw [this, ih]
  have key : ∀ (L : List B) (a : FP R), b ∈ L → L.foldl (rowStep g fun _ => (FP.nan : FP R)) a = FP.nan := by
    intro L
    induction L with
    | nil => intro a h; cases h
    | cons c L ih =>
      intro a h
      rw [List.foldl_cons]
      rcases List.mem_cons.1 h with rfl | h
      · have : rowStep g (fun _ => (FP.nan : FP R)) a b = FP.nan := by
          unfold rowStep
          rw [hg]
          exact add_nan_right a
        rw [this, keep]
      · exact ih _ h
  exact key bs _ hb

theorem normalise_nans {A : Type} {as : List A} (hne : as ≠ []) :
    normalise (as.map fun _ => (FP.nan : FP R)) = .ok (as.map fun _ => FP.nan) := by
  cases as with
  | nil => exact absurd rfl hne
  | cons a as =>
    unfold normalise
    have : ∀ L : List A, (L.map fun _ => (FP.nan : FP R)).foldl (fun m y => if Arith.lt m y then y else m) FP.nan = FP.nan := by
      intro L
      induction L with
      | nil => rfl
      | cons b L ih =>
        rw [List.map_cons, List.foldl_cons, ite_self]
        exact ih
    simp only [List.map_cons, pyMax, this, bind, Except.bind, pure, Except.pure, List.map_map]
    rfl

theorem normalise_zeros {A : Type} [DecidableEq A] {as : List A} (hne : as ≠ []) :
    normalise (as.map fun _ => (FP.fin 0 : FP R)) = .ok (as.map fun _ => FP.nan) := by
  obtain ⟨m, -, hm, -⟩ := pyMax_fp (R := R) hne (fun _ => (0 : ℝ))
  unfold normalise
  rw [hm]
  simp only [bind, Except.bind, pure, Except.pure, List.map_map, Except.ok.injEq]
  apply List.map_congr_left
  intro a _
  show FNum.div R (.fin 0) (.fin 0) = .nan
  simp [FNum.div]

/-- All scores NaN. -/
def AllNans (l : List (S × V × X)) (t b : Vec (FP R)) : Prop :=
  t = (sources l).map (fun _ => FP.nan) ∧ b = (claims l).map fun _ => FP.nan

/-- The weight of a source with a single claim. -/
theorem weight_one : (Arith.log (FP.fin ((1 : Nat) : ℝ) : FP R) /. FP.fin ((1 : Nat) : ℝ)) = FP.fin 0 := by
  have e : (Arith.log (FP.fin ((1 : Nat) : ℝ) : FP R)) = FP.fin 0 := by
    show FNum.log R (.fin _) = _
    have h := faithful_rep (R.log_faithful 1 one_pos) (by rw [Real.log_one]; exact rep_zero)
    rw [Real.log_one] at h
    simp only [FNum.log, Nat.cast_one]
    rw [if_neg (by norm_num), if_neg (by norm_num), h]
    rfl
  rw [e, FP.div_fin _ (by norm_num), zero_div]
  exact R.zero

theorem avlog_nan_body (hN : Precise R N) (l : List (S × V × X)) (f : Option (V → X → X → Option (FP R))) (hl : l ≠ [])
    (hone : ∀ s ∈ sources l, (claimsOf l s).card = 1) (hS : 1 ≤ N)
    (hM : (claims l).length * (sources l).length ≤ N) (t b : Vec (FP R))
    (hb : Start l (sources l).length b ∨ b = (claims l).map fun _ => FP.nan) :
    ∃ s, avlogBody (matsOf l f) t b = .ok (some s) ∧ AllNans l s.trust s.belief := by
  have hS1 : 1 ≤ (sources l).length := List.length_pos_iff.2 (sources_ne hl)
  have hC : (claims l).length ≤ N := (Nat.le_mul_of_pos_right _ hS1).trans hM
  have hw : avlogWeights (matsOf l f) = (sources l).map fun _ => FP.fin 0 := by
    unfold avlogWeights
    rw [claimCounts_fp l f hN hC, List.map_map]
    apply List.map_congr_left
    intro s hs
    simp only [Function.comp_apply, hone s hs]
    exact weight_one
  refine ⟨⟨(sources l).map fun _ => FP.nan, t, (sources l).map fun _ => FP.nan, (claims l).map fun _ => FP.nan⟩, ?_, rfl, rfl⟩
  unfold avlogBody
  rcases hb with ⟨B, rfl, hB, -⟩ | rfl
  · have h1 : ∀ s, ∃ r, rowDot (claims l) (scL l s) (fun c => (FP.fin (B c) : FP R)) = FP.fin r := fun s => by
      obtain ⟨r, hr, -⟩ := rowDot_bounds hN (fun c => (s, c) ∈ recorded l) (fun c _ => scL_fp l s c) hM hB
      exact ⟨r, hr⟩
    have e1 : vzip Arith.mul (avlogWeights (matsOf l f)) ((matsOf l f).sc.mulVec ((claims l).map fun c => FP.fin (B c))) =
        (sources l).map fun _ => (FP.fin 0 : FP R) := by
      rw [hw, sc_eq_ofRel, Mat.mulVec_ofRel]
      unfold vzip
      rw [List.zipWith_map, List.zipWith_self]
      apply List.map_congr_left
      intro s _
      obtain ⟨r, hr⟩ := h1 s
      rw [hr, FP.mul_fin, zero_mul]
      exact R.zero
    have e2 : (matsOf l f).sc.T.mulVec ((sources l).map fun _ => (FP.fin 0 : FP R)) =
        (claims l).map fun _ => (FP.fin 0 : FP R) := by
      rw [scT_eq_ofRel, Mat.mulVec_ofRel]
      apply List.map_congr_left
      intro c _
      obtain ⟨r, hr, -, h0, h1, -⟩ := rowDot_bounds (M := 0) hN (fun s => (s, c) ∈ recorded l) (fun s _ => scL_fp l s c)
        (F := fun _ => 0) (by simp) (fun _ _ => ⟨rep_zero, le_rfl, by simp⟩)
      rw [hr]
      congr 1
      simp only [mul_zero, Nat.cast_zero] at h1
      linarith
    rw [e1]
    dsimp only
    rw [e2, normalise_zeros (sources_ne hl), normalise_zeros (claims_ne hl)]
    rfl
  · have e1 : vzip Arith.mul (avlogWeights (matsOf l f)) ((matsOf l f).sc.mulVec ((claims l).map fun _ => FP.nan)) =
        (sources l).map fun _ => (FP.nan : FP R) := by
      rw [hw, sc_eq_ofRel, Mat.mulVec_ofRel]
      unfold vzip
      rw [List.zipWith_map, List.zipWith_self]
      apply List.map_congr_left
      intro s hs
      obtain ⟨c, hc⟩ := claimsOf_nonempty l hs
      rw [rowDot_nans (b := c) (mem_claims_of_claimsOf l hc) (by rw [scL_fp, if_pos ((mem_claimsOf l).1 hc)])]
      rfl
    have e2 : (matsOf l f).sc.T.mulVec ((sources l).map fun _ => (FP.nan : FP R)) =
        (claims l).map fun _ => (FP.nan : FP R) := by
      rw [scT_eq_ofRel, Mat.mulVec_ofRel]
      apply List.map_congr_left
      intro c hc
      obtain ⟨s, hs⟩ := sourcesOf_nonempty l hc
      rw [rowDot_nans (b := s) (mem_sources_of_sourcesOf l hs) (by rw [scL_fp, if_pos ((mem_sourcesOf l).1 hs)])]
    rw [e1]
    dsimp only
    rw [e2, normalise_nans (sources_ne hl), normalise_nans (claims_ne hl)]
    rfl

/-- **C83.** If every source makes one claim only, every score is NaN from the first iteration on, also
in double precision. -/
theorem C83_average_log_nan (hN : Precise R N) (h2 : 2 ≤ N) (l : List (S × V × X)) (am : Bool)
    (f : Option (V → X → X → Option (FP R)))
    (d : Dataset S V X (FP R)) (h : Dataset.mk' l am f = .ok d)
    (hsize : (allClaims l).card * (allSources l).card ≤ N)
    (hone : ∀ s ∈ allSources l, (claimsOf l s).card = 1) (it : IterCfg (FP R)) (p : Prior)
    (fuel : Nat) (clock : Nat → FP R) (st : IterState (FP R)) :
    (∀ r, (⟨.averageLog, it, some p⟩ : AlgCfg (FP R)).run d fuel clock st = .ok r →
      ∀ k, r.iterations = some k → 1 ≤ k → Complete l r ∧ ScoresAre r (· = FP.nan) (· = FP.nan)) ∧
    (∀ rs, (⟨.averageLog, it, some p⟩ : AlgCfg (FP R)).runIter d fuel clock st = .ok rs →
      ∀ r ∈ rs, ∀ k, r.iterations = some k → 1 ≤ k → Complete l r ∧ ScoresAre r (· = FP.nan) (· = FP.nan)) ∧
    (∀ K : Nat, it = .fixed K → l ≠ [] → K < fuel →
      ∃ r, (⟨.averageLog, it, some p⟩ : AlgCfg (FP R)).run d fuel clock st = .ok r ∧ r.iterations = some K) := by
  have hsz : (claims l).length * (sources l).length ≤ N := by rw [length_sources, length_claims]; exact hsize
  exact inv_runs (c := ⟨.averageLog, it, some p⟩) one_ne_zero_fp h nofun
    (I := fun b => Start l (sources l).length b ∨ b = (claims l).map fun _ => FP.nan) (G := AllNans l)
    (P := fun r => Complete l r ∧ ScoresAre r (· = FP.nan) (· = FP.nan))
    (fun hl => by
      obtain ⟨b, hb, hs⟩ := prior_start l f hN hl h2 (by rw [mul_comm]; exact hsz) p
      exact ⟨zeros (matsOf l f).numSources, b, by simp only [AlgCfg.init, hb, bind, Except.bind, pure, Except.pure], .inl hs⟩)
    (fun hl t b hb => by
      obtain ⟨s, hs, hn⟩ := avlog_nan_body hN l f hl (fun s hs => hone s ((mem_allSources l).2 hs)) (by omega) hsz t b hb
      exact ⟨s, hs, hn, .inr hn.2⟩)
    (fun t b time it hn => by
      obtain ⟨rfl, rfl⟩ := hn
      refine ⟨complete_resultOf l _ _ _ _, fun s x hx => ?_, fun v x y hy => ?_⟩
      · rw [trust_resultOf] at hx
        split at hx <;> cases hx
        rfl
      · rw [belief_resultOf] at hy
        split at hy <;> cases hy
        rfl) fuel clock st

end

/-! ### CRH -/

theorem crh_init (l : List (S × V × X)) (f : Option (V → X → X → Option (FP (.binary64 ω)))) (hl : l ≠ [])
    (hS : (sources l).length ≤ 2 ^ 53) (it : IterCfg (FP (.binary64 ω))) (p : Option Prior) (eps : FP (.binary64 ω)) :
    ∃ t b, (⟨.crh eps, it, p⟩ : AlgCfg (FP (.binary64 ω))).init (matsOf l f) = .ok (t, b) ∧
      ∀ x ∈ b, Btw (.binary64 ω) 0 1 x := by
  refine ⟨_, _, rfl, ?_⟩
  intro x hx
  obtain ⟨y, hy, rfl⟩ := List.mem_map.1 hx
  rw [sourceCounts_fp l f C31_binary64 hS] at hy
  obtain ⟨c, -, rfl⟩ := List.mem_map.1 hy
  have hS1 : 1 ≤ (sources l).length := List.length_pos_iff.2 (sources_ne hl)
  have hSp : (0 : ℝ) < (sources l).length := by exact_mod_cast hS1
  have e : (Arith.ofNat (matsOf l f).numSources : FP (.binary64 ω)) = FP.fin ((sources l).length : ℝ) := rep64_nat hS
  rw [e, FP.div_fin _ hSp.ne']
  refine btw_rnd rep_zero rep_one (by positivity) ((div_le_one hSp).2 ?_)
  exact_mod_cast card_sourcesOf_le l c

theorem btw_result {l : List (S × V × X)} {a b c : ℝ} {t v : Vec (FP (.binary64 ω))}
    (ht : ∀ x ∈ t, Btw (.binary64 ω) a b x) (hv : ∀ x ∈ v, Btw (.binary64 ω) 0 c x) (h1 : t.length = (sources l).length)
    (h2 : v.length = (claims l).length) (time : FP (.binary64 ω)) (it : Option Nat) :
    Complete l (resultOf l t v time it) ∧
    ScoresAre (resultOf l t v time it) (fun x => ∃ y, x = FP.fin y ∧ a ≤ y ∧ y ≤ b)
      (fun x => ∃ y, x = FP.fin y ∧ 0 ≤ y ∧ y ≤ c) := by
  have hsz : Sized (matsOf l (none : Option (V → X → X → Option (FP (.binary64 ω))))) t v := ⟨h1, h2⟩
  refine ⟨complete_sized hsz _ _, fun s x h => ?_, fun w x y h => ?_⟩
  · have hm : (s, x) ∈ (sources l).zip t := mem_of_lookup_some h
    obtain ⟨y, hy, -, hb⟩ := ht x (List.of_mem_zip hm).2
    exact ⟨y, hy, hb⟩
  · obtain ⟨j, -, hj⟩ := (mem_beliefOf (nodup_claims l)).1 h
    obtain ⟨z, hz, -, hb⟩ := hv y (List.mem_of_getElem? hj)
    exact ⟨z, hz, hb⟩

/-- What is known of the scores of CRH in double precision. -/
def CrhScores (l : List (S × V × X)) (e : ℝ) (r : Result S V X (FP (.binary64 ω))) : Prop :=
  Complete l r ∧
  ScoresAre r (fun x => ∃ y, x = FP.fin y ∧ e ≤ y ∧ y ≤ 128)
    (fun x => ∃ y, x = FP.fin y ∧ 0 ≤ y ∧ y ≤ 1 + (allSources l).card * 2 ^ (-50 : ℤ)) ∧
  (AddsInTurn (.binary64 ω) (allSources l).card →
    ScoresAre r (fun x => ∃ y, x = FP.fin y ∧ e ≤ y ∧ y ≤ 128) (fun x => ∃ y, x = FP.fin y ∧ 0 ≤ y ∧ y ≤ 1))

/-- **C83.** CRH in double precision with `2⁻⁶⁰ ≤ eps ≤ 1`: after at least one iteration every trust score
is a finite number between `eps` and 128 and every belief score one between 0 and `1 + n·2⁻⁵⁰`, where `n` is the
number of sources, never NaN, in whatever order numbers are added; if they are added one after the other, it is at
most 1. `C76_crh_above` shows that belief scores above 1 do occur. -/
theorem C83_crh (l : List (S × V × X)) (am : Bool) (f : Option (V → X → X → Option (FP (.binary64 ω))))
    (d : Dataset S V X (FP (.binary64 ω))) (h : Dataset.mk' l am f = .ok d) (hl : l ≠ [])
    (hsize : (allSources l).card * (allClaims l).card ^ 2 ≤ 2 ^ 50)
    (e : ℝ) (he : IsDouble e) (he0 : (2 : ℝ) ^ (-60 : ℤ) ≤ e) (he1 : e ≤ 1)
    (it : IterCfg (FP (.binary64 ω))) (p : Option Prior)
    (fuel : Nat) (clock : Nat → FP (.binary64 ω)) (st : IterState (FP (.binary64 ω))) :
    (∀ r, (⟨.crh (FP.fin e), it, p⟩ : AlgCfg (FP (.binary64 ω))).run d fuel clock st = .ok r →
      ∀ k, r.iterations = some k → 1 ≤ k →
      CrhScores l e r) ∧
    (∀ rs, (⟨.crh (FP.fin e), it, p⟩ : AlgCfg (FP (.binary64 ω))).runIter d fuel clock st = .ok rs →
      ∀ r ∈ rs, ∀ k, r.iterations = some k → 1 ≤ k →
      CrhScores l e r) ∧
    (∀ K : Nat, it = .fixed K → K < fuel →
      ∃ r, (⟨.crh (FP.fin e), it, p⟩ : AlgCfg (FP (.binary64 ω))).run d fuel clock st = .ok r ∧
        r.iterations = some K) := by
  have he' : Rep (.binary64 ω) e := (C31_nearest e).2.2.2 he
  rw [← length_sources, ← length_claims, pow_two] at hsize
  have hC1 : 1 ≤ (claims l).length * (claims l).length :=
    Nat.mul_pos (List.length_pos_iff.2 (claims_ne hl)) (List.length_pos_iff.2 (claims_ne hl))
  have hS50 : (sources l).length ≤ 2 ^ 50 := (Nat.le_mul_of_pos_right _ hC1).trans hsize
  have hsz : (sources l).length * (4 * ((claims l).length * (claims l).length) + 1) ≤ 2 ^ 53 := by
    rw [Nat.mul_add, mul_one, Nat.mul_left_comm]
    omega
  have hS : (sources l).length ≤ 2 ^ 53 := hS50.trans (by norm_num)
  have h128 : (2 : ℝ) ^ (7 : ℤ) = 128 := by norm_num
  have hn : ((sources l).length : ℝ) * 2 ^ (-50 : ℤ) ≤ 1 := by
    calc ((sources l).length : ℝ) * 2 ^ (-50 : ℤ) ≤ 2 ^ (50 : ℤ) * 2 ^ (-50 : ℤ) :=
          mul_le_mul_of_nonneg_right (by exact_mod_cast hS50) (Double.two_zpow_pos _).le
      _ = 1 := by rw [← zpow_add₀ two_ne_zero]; norm_num
  obtain ⟨h1, h2, h3⟩ := inv_runs (c := ⟨.crh (FP.fin e), it, p⟩) one_ne_zero_fp h nofun
    (I := fun b => ∀ x ∈ b, Btw (.binary64 ω) 0 2 x)
    (G := fun t b => (∀ x ∈ t, Btw (.binary64 ω) e (2 ^ (7 : ℤ)) x) ∧
      (∀ x ∈ b, Btw (.binary64 ω) 0 (1 + (sources l).length * 2 ^ (-50 : ℤ)) x) ∧
      (AddsInTurn (.binary64 ω) (sources l).length → ∀ x ∈ b, Btw (.binary64 ω) 0 1 x) ∧
      t.length = (sources l).length ∧ b.length = (claims l).length)
    (P := CrhScores l e)
    (fun hl => by
      obtain ⟨t, b, h, hb⟩ := crh_init l f hl hS it p _
      exact ⟨t, b, h, fun x hx => (hb x hx).mono le_rfl one_le_two⟩)
    (fun hl t b hb => by
      obtain ⟨s, hs, -, -, h1, h2, h3, h4, h5⟩ := crh_normal l f hsz hS50 hl he' he0 he1 t hb
      exact ⟨s, hs, ⟨h1, h2, h3, h4, h5⟩, fun x hx => (h2 x hx).mono le_rfl (by linarith)⟩)
    (fun t b time it hn => by
      obtain ⟨g1, g2, g3, g4, g5⟩ := hn
      unfold CrhScores
      rw [← h128, ← length_sources]
      obtain ⟨c, r⟩ := btw_result g1 g2 g4 g5 time it
      exact ⟨c, r, fun ht => (btw_result g1 (g3 ht) g4 g5 time it).2⟩) fuel clock st
  exact ⟨h1, h2, fun K hK => h3 K hK hl⟩

/-- The default `eps`, `1e-5`, is such a number. -/
theorem C83_crh_default : ∃ e : ℝ, (Arith.lit 1 100000 : FP (.binary64 ω)) = FP.fin e ∧ IsDouble e ∧
    (2 : ℝ) ^ (-60 : ℤ) ≤ e ∧ e ≤ 1 := by
  have h1 : (2 : ℝ) ^ (-60 : ℤ) ≤ ((1 : ℤ) : ℝ) / ((100000 : ℕ) : ℝ) := by
    rw [zpow_neg]; norm_num
  obtain ⟨e, h, hr, h0, h1⟩ := rnd_between (R := .binary64 ω) (rep64_pow (e := -60) (by norm_num) (by norm_num)) rep_one
    h1 (by norm_num)
  exact ⟨e, h, ((C31_nearest _).1 e h).1, h0, h1⟩

/-- The hypotheses hold for a concrete dataset, and there are runs. -/
example (clock : Nat → FP (.binary64 ω)) : ∃ (d : Dataset Nat Nat Nat (FP (.binary64 ω))) (r r' : Result Nat Nat Nat (FP (.binary64 ω))),
    Dataset.mk' [(0, 0, 1), (1, 0, 2), (1, 1, 5), (2, 0, 2)] false none = .ok d ∧
    (⟨.averageLog, .fixed 20, some .voted⟩ : AlgCfg (FP (.binary64 ω))).run d 100 clock = .ok r ∧
    Within r (fun y => 0 ≤ y ∧ y ≤ 1) ∧ OneAttained r ∧
    (⟨.crh (Arith.lit 1 100000), .fixed 20, some .voted⟩ : AlgCfg (FP (.binary64 ω))).run d 100 clock = .ok r' ∧
    ScoresAre r' (fun x => ∃ y, x = FP.fin y ∧ 0 < y ∧ y ≤ 128)
      (fun x => ∃ y, x = FP.fin y ∧ 0 ≤ y ∧ y ≤ 1 + (3 : Nat) * 2 ^ (-50 : ℤ)) := by
  have hd := (mk'_ok_iff [(0, 0, 1), (1, 0, 2), (1, 1, 5), (2, 0, 2)] (one_ne_zero_fp (R := .binary64 ω)) false none _).2
    ⟨rfl, .inr (by simp [NoRepeats]), by simp [optImpBad]⟩
  obtain ⟨h1, -, h3⟩ := C83_average_log _ _ _ _ hd (by decide) ⟨1, by decide⟩ (.fixed 20) .voted 100 clock {}
  obtain ⟨r, hr, hk⟩ := h3 20 rfl (by norm_num)
  obtain ⟨e, he, h4, h5, h6⟩ := C83_crh_default
  obtain ⟨g1, -, g3⟩ := C83_crh _ _ _ _ hd (by simp) (by decide) e h4 h5 h6 (.fixed 20) (some .voted) 100 clock {}
  obtain ⟨r', hr', hk'⟩ := g3 20 rfl (by norm_num)
  obtain ⟨-, ⟨g4, g5⟩, -⟩ := g1 r' hr' 20 hk' (by norm_num)
  have hp60 : (0 : ℝ) < 2 ^ (-60 : ℤ) := Double.two_zpow_pos _
  refine ⟨_, r, r', hd, hr, (h1 r hr 20 hk (by norm_num)).2.1, (h1 r hr 20 hk (by norm_num)).2.2, by rw [he]; exact hr', ?_, g5⟩
  intro s x hx
  obtain ⟨y, hy, hy0, hy1⟩ := g4 s x hx
  exact ⟨y, hy, (hp60.trans_le h5).trans_le hy0, hy1⟩

example (clock : Nat → FP (.binary64 ω)) : ∃ (d : Dataset Nat Nat Nat (FP (.binary64 ω))) (r : Result Nat Nat Nat (FP (.binary64 ω))),
    Dataset.mk' [(0, 0, 1), (1, 0, 2), (2, 0, 2)] false none = .ok d ∧
    (⟨.averageLog, .fixed 20, some .voted⟩ : AlgCfg (FP (.binary64 ω))).run d 100 clock = .ok r ∧
    ScoresAre r (· = FP.nan) (· = FP.nan) := by
  have hd := (mk'_ok_iff [(0, 0, 1), (1, 0, 2), (2, 0, 2)] (one_ne_zero_fp (R := .binary64 ω)) false none _).2
    ⟨rfl, .inr (by simp [NoRepeats]), by simp [optImpBad]⟩
  obtain ⟨h1, -, h3⟩ := C83_average_log_nan C31_binary64 (by norm_num) _ _ _ _ hd (by decide) (by decide) (.fixed 20) .voted 100 clock {}
  obtain ⟨r, hr, hk⟩ := h3 20 rfl (by simp) (by norm_num)
  exact ⟨_, r, hd, hr, (h1 r hr 20 hk (by norm_num)).2⟩

end TD
