import Verif.Lemmas.Rounded
import Verif.Lemmas.Build
import Verif.Model.Double
/-!
# Scores computed with rounding (C31)

Unlike the other numeric properties these hold for floating point numbers as they are:
`R` is any monotone rounding that represents the integers up to `N` exactly and does not
flush `1/N` to zero (`Precise R N`); IEEE binary64 is one, with `N = 2 ^ 53`.
-/

namespace TD
open Spec
attribute [-instance] instBEqProd

variable {S V X : Type} [DecidableEq S] [DecidableEq V] [DecidableEq X] {R : Rounding} {N : Nat}

theorem one_ne_zero_fp : Arith.eq (Arith.ofNat 1 : FP R) (Arith.ofNat 0) = false := by
  rw [FP.one_eq, FP.zero_eq]
  show FNum.eq (.fin 1) (.fin 0) = false
  simp [FNum.eq, FNum.toEReal]

theorem trust_resultOf {α : Type} [Arith α] (l : List (S × V × X)) (F : S → α) (b : Vec α) (time : α)
    (it : Option Nat) (s : S) :
    (resultOf l ((sources l).map F) b time it).trust.get? s = if s ∈ sources l then some (F s) else none := by
  have key : ∀ ks : List S, ks.zip (ks.map F) = ks.map fun k => (k, F k) := by
    intro ks
    induction ks with
    | nil => rfl
    | cons k ks ih => simp only [List.map_cons, List.zip_cons_cons, ih]
  simp only [resultOf]
  rw [key]
  exact lookup_map_key _ F s

theorem belief_resultOf {α : Type} [Arith α] (l : List (S × V × X)) (t : Vec α) (F : V × X → α) (time : α)
    (it : Option Nat) (v : V) (x : X) :
    ((resultOf l t ((claims l).map F) time it).belief.get? v).bind (fun d => d.get? x) =
      if (v, x) ∈ claims l then some (F (v, x)) else none := by
  simp only [resultOf]
  by_cases h : (v, x) ∈ claims l
  · rw [if_pos h, mem_beliefOf (nodup_claims l)]
    obtain ⟨j, hj⟩ := List.mem_iff_getElem?.1 h
    exact ⟨j, hj, by simp [hj]⟩
  · rw [if_neg h, Option.eq_none_iff_forall_ne_some]
    intro a ha
    obtain ⟨j, hj, -⟩ := (mem_beliefOf (nodup_claims l)).1 ha
    exact h (List.mem_of_getElem? hj)

theorem complete_resultOf (l : List (S × V × X)) (F : S → FP R) (G : V × X → FP R) (time : FP R)
    (it : Option Nat) : Complete l (resultOf l ((sources l).map F) ((claims l).map G) time it) := by
  refine ⟨fun s => ?_, fun v x => ?_⟩
  · rw [trust_resultOf, mem_allSources]
    split <;> simp_all
  · rw [belief_resultOf, mem_allClaims]
    split <;> simp_all

/-- What normalised vectors mean for the result. -/
theorem Normal.result {l : List (S × V × X)} {t b : Vec (FP R)} (h : Normal l t b) (time : FP R)
    (it : Option Nat) : Complete l (resultOf l t b time it) ∧
      Within (resultOf l t b time it) (fun y => 0 ≤ y ∧ y ≤ 1) ∧ OneAttained (resultOf l t b time it) := by
  obtain ⟨T, B, rfl, rfl, h1, h2, ⟨s, hs, h3⟩, ⟨c, hc, h4⟩⟩ := h
  refine ⟨complete_resultOf _ _ _ _ _, ⟨fun s x hx => ?_, fun v x b hb => ?_⟩, ⟨s, ?_⟩, ⟨c.1, c.2, ?_⟩⟩
  · rw [trust_resultOf] at hx
    split at hx
    · rename_i hs
      cases hx
      exact ⟨_, rfl, (h1 s hs).2⟩
    · cases hx
  · rw [belief_resultOf] at hb
    split at hb
    · rename_i hs
      cases hb
      exact ⟨_, rfl, (h2 _ hs).2⟩
    · cases hb
  · rw [trust_resultOf, if_pos hs, h3]
  · rw [belief_resultOf, if_pos hc, h4]

/-- The loop of Sums. -/
theorem sums_steps {l : List (S × V × X)} {f : Option (V → X → X → Option (FP R))} (hN : Precise R N)
    (hsize : (sources l).length * ((claims l).length * (sources l).length) ≤ N) (hS : 1 ≤ (sources l).length)
    {it : IterCfg (FP R)} {st : IterState (FP R)} {t b : Vec (FP R)} {n : Nat} {st' t' b' L}
    (h : Steps it (sumsBody (matsOf l f)) st t b n st' t' b' L) {M : Nat} (hM : M ≤ (sources l).length)
    (hb : Start l M b) : (1 ≤ n → Normal l t' b') ∧ ∀ e ∈ L, Normal l e.trust e.belief := by
  have hbound : ∀ {M}, M ≤ (sources l).length → (sources l).length * ((claims l).length * M) ≤ N ∧
      (claims l).length * M ≤ N := fun {M} hM => by
    have h1 : (claims l).length * M ≤ (claims l).length * (sources l).length := Nat.mul_le_mul_left _ hM
    have h2 : (sources l).length * ((claims l).length * M) ≤ N := (Nat.mul_le_mul_left _ h1).trans hsize
    exact ⟨h2, (Nat.le_mul_of_pos_left _ hS).trans h2⟩
  induction h generalizing M with
  | refl => exact ⟨fun h => absurd h (by omega), by simp⟩
  | cons hfin hbody hcmp hrest ih =>
    obtain ⟨s, hs, -, -, hn⟩ := sums_normal l f hN (hbound hM).1 (hbound hM).2 _ hb
    rw [hs] at hbody
    cases hbody
    obtain ⟨h1, h2⟩ := ih (M := 1) hS (hn.start l)
    refine ⟨fun _ => ?_, ?_⟩
    · cases hrest with
      | refl => exact hn
      | cons => exact h1 (by omega)
    · intro e he
      rcases List.mem_cons.1 he with rfl | he
      · exact hn
      · exact h2 e he

/-- Any number of iterations is possible. -/
theorem sums_fixed_steps {l : List (S × V × X)} {f : Option (V → X → X → Option (FP R))} (hN : Precise R N)
    (hsize : (sources l).length * ((claims l).length * (sources l).length) ≤ N) (hS : 1 ≤ (sources l).length)
    (K : Nat) (n : Nat) : ∀ (st : IterState (FP R)) (t b : Vec (FP R)) (M : Nat), M ≤ (sources l).length →
      Start l M b → st.itCount + n ≤ K →
      ∃ st' t' b' L, Steps (.fixed K) (sumsBody (matsOf l f)) st t b n st' t' b' L := by
  induction n with
  | zero => intro st t b M _ _ _; exact ⟨st, t, b, [], .refl _ _ _⟩
  | succ n ih =>
    intro st t b M hM hb hn
    have h1 : (claims l).length * M ≤ (claims l).length * (sources l).length := Nat.mul_le_mul_left _ hM
    have h2 : (sources l).length * ((claims l).length * M) ≤ N := (Nat.mul_le_mul_left _ h1).trans hsize
    obtain ⟨s, hs, -, -, hnorm⟩ := sums_normal l f hN h2 ((Nat.le_mul_of_pos_left _ hS).trans h2) t hb
    obtain ⟨st', t', b', L, h⟩ := ih { st with itCount := st.itCount + 1 } s.trust s.belief 1 hS
      (hnorm.start l) (by simp; omega)
    refine ⟨st', t', b', _, .cons ?_ hs rfl h⟩
    simp only [IterCfg.finished, Except.ok.injEq, decide_eq_false_iff_not]; omega

theorem sums_size {l : List (S × V × X)} (hsize : (allSources l).card ^ 2 * (allClaims l).card ≤ N) :
    (sources l).length * ((claims l).length * (sources l).length) ≤ N := by
  rw [length_sources, length_claims]
  calc _ = (allSources l).card ^ 2 * (allClaims l).card := by ring
    _ ≤ N := hsize

theorem sums_init (hN : Precise R N) {l : List (S × V × X)} {f : Option (V → X → X → Option (FP R))}
    (hl : l ≠ []) (h2 : 2 ≤ N) (hsize : (sources l).length * ((claims l).length * (sources l).length) ≤ N)
    (it : IterCfg (FP R)) (p : Prior) :
    ∃ b, (⟨.sums, it, some p⟩ : AlgCfg (FP R)).init (matsOf l f) = .ok (zeros (matsOf l f).numSources, b) ∧
      Start l (sources l).length b := by
  have hS : 1 ≤ (sources l).length := List.length_pos_iff.2 (sources_ne hl)
  have hC : 1 ≤ (claims l).length := List.length_pos_iff.2 (claims_ne hl)
  have hle : (sources l).length * (claims l).length ≤ N := by
    refine le_trans ?_ hsize
    exact Nat.mul_le_mul_left _ (Nat.le_mul_of_pos_right _ hS)
  obtain ⟨b, hb, hs⟩ := prior_start l f hN hl h2 hle p
  refine ⟨b, ?_, hs⟩
  simp only [AlgCfg.init, hb, bind, Except.bind, pure, Except.pure]

/-- **C31.** After at least one iteration of Sums, computed with rounding, all scores are
finite numbers in `[0, 1]`, and the largest trust and the largest belief are exactly 1. -/
theorem C31_sums (hN : Precise R N) (h2 : 2 ≤ N) (l : List (S × V × X)) (am : Bool)
    (f : Option (V → X → X → Option (FP R))) (d : Dataset S V X (FP R)) (h : Dataset.mk' l am f = .ok d)
    (hsize : (allSources l).card ^ 2 * (allClaims l).card ≤ N) (it : IterCfg (FP R)) (p : Prior)
    (fuel : Nat) (clock : Nat → FP R) (st : IterState (FP R)) (r : Result S V X (FP R))
    (hr : (⟨.sums, it, some p⟩ : AlgCfg (FP R)).run d fuel clock st = .ok r)
    (k : Nat) (hk : r.iterations = some k) (hk1 : 1 ≤ k) :
    Complete l r ∧ Within r (fun y => 0 ≤ y ∧ y ≤ 1) ∧ OneAttained r := by
  obtain rfl := ((mk'_ok_iff l one_ne_zero_fp am f d).1 h).1
  rw [run_eq] at hr
  cases he : (⟨.sums, it, some p⟩ : AlgCfg (FP R)).exec (matsOf l f) fuel st with
  | error e => rw [he] at hr; cases hr
  | ok out =>
    rw [he] at hr
    cases hr
    obtain ⟨h0, t0, b0, n, st', t, b, L, hi, -, hs, -, hf, hit, hlog⟩ := (exec_ok_iff _ _ _ _ _).1 he
    have hl : l ≠ [] := fun e => h0 ((numClaims_zero l f).2 e)
    obtain ⟨b1, hi1, hstart⟩ := sums_init (f := f) hN hl h2 (sums_size hsize) it p
    rw [hi1] at hi
    cases hi
    have hS : 1 ≤ (sources l).length := List.length_pos_iff.2 (sources_ne hl)
    have hfin : (.ok (t, b) : Except PyErr (Vec (FP R) × Vec (FP R))) = .ok (out.trust, out.belief) := hf
    cases hfin
    have hk' : out.iterations = k := Option.some.inj hk
    exact ((sums_steps hN (sums_size hsize) hS hs le_rfl hstart).1 (by omega)).result _ _

/-- **C31** for the partial results of `run_iter`, from the first iteration on. -/
theorem C31_sums_iter (hN : Precise R N) (h2 : 2 ≤ N) (l : List (S × V × X)) (am : Bool)
    (f : Option (V → X → X → Option (FP R))) (d : Dataset S V X (FP R)) (h : Dataset.mk' l am f = .ok d)
    (hsize : (allSources l).card ^ 2 * (allClaims l).card ≤ N) (it : IterCfg (FP R)) (p : Prior)
    (fuel : Nat) (clock : Nat → FP R) (st : IterState (FP R)) (rs : List (Result S V X (FP R)))
    (hr : (⟨.sums, it, some p⟩ : AlgCfg (FP R)).runIter d fuel clock st = .ok rs)
    (i : Nat) (hi1 : 1 ≤ i) (r : Result S V X (FP R)) (hri : rs[i]? = some r) :
    Complete l r ∧ Within r (fun y => 0 ≤ y ∧ y ≤ 1) ∧ OneAttained r := by
  obtain rfl := ((mk'_ok_iff l one_ne_zero_fp am f d).1 h).1
  rw [runIter_eq] at hr
  cases he : (⟨.sums, it, some p⟩ : AlgCfg (FP R)).exec (matsOf l f) fuel st with
  | error e => rw [he] at hr; cases hr
  | ok out =>
    rw [he] at hr
    cases hr
    obtain ⟨h0, t0, b0, n, st', t, b, L, hi, -, hs, -, hf, hit, hlog⟩ := (exec_ok_iff _ _ _ _ _).1 he
    have hl : l ≠ [] := fun e => h0 ((numClaims_zero l f).2 e)
    obtain ⟨b1, hi1', hstart⟩ := sums_init (f := f) hN hl h2 (sums_size hsize) it p
    rw [hi1'] at hi
    cases hi
    have hS : 1 ≤ (sources l).length := List.length_pos_iff.2 (sources_ne hl)
    simp only [enum, List.map_map, List.getElem?_map, List.getElem?_zipIdx, Option.map_map,
      Option.map_eq_some_iff] at hri
    obtain ⟨e, he', rfl⟩ := hri
    rw [hlog] at he'
    have hL : e ∈ L := by
      have h' : (([⟨0, zeros (matsOf l f).numSources, b0⟩] : List (LogEntry (FP R))) ++ L)[i]? = some e := he'
      obtain ⟨j, rfl⟩ : ∃ j, i = j + 1 := ⟨i - 1, by omega⟩
      exact List.mem_of_getElem? (i := j) (by simpa using h')
    exact ((sums_steps hN (sums_size hsize) hS hs le_rfl hstart).2 e hL).result _ _

/-- **C31.** With a fixed number of iterations Sums always succeeds. -/
theorem C31_sums_fixed (hN : Precise R N) (h2 : 2 ≤ N) (l : List (S × V × X)) (am : Bool)
    (f : Option (V → X → X → Option (FP R))) (d : Dataset S V X (FP R)) (h : Dataset.mk' l am f = .ok d)
    (hl : l ≠ []) (hsize : (allSources l).card ^ 2 * (allClaims l).card ≤ N) (K : Nat) (p : Prior)
    (fuel : Nat) (hfuel : K < fuel) (clock : Nat → FP R) (st : IterState (FP R)) :
    ∃ r, (⟨.sums, .fixed K, some p⟩ : AlgCfg (FP R)).run d fuel clock st = .ok r ∧ r.iterations = some K := by
  obtain rfl := ((mk'_ok_iff l one_ne_zero_fp am f d).1 h).1
  have hS : 1 ≤ (sources l).length := List.length_pos_iff.2 (sources_ne hl)
  obtain ⟨b, hi, hstart⟩ := sums_init (f := f) hN hl h2 (sums_size hsize) (.fixed K) p
  obtain ⟨st', t', b', L, hs⟩ := sums_fixed_steps (f := f) hN (sums_size hsize) hS K K {}
    (zeros (matsOf l f).numSources) b _ le_rfl hstart (by simp)
  have hex : (⟨.sums, .fixed K, some p⟩ : AlgCfg (FP R)).exec (matsOf l f) fuel st =
      .ok ⟨t', b', K, initLog ⟨.sums, .fixed K, some p⟩ (zeros (matsOf l f).numSources) b ++ L⟩ := by
    rw [exec_ok_iff]
    refine ⟨fun e => hl ((numClaims_zero l f).1 e), _, _, K, st', t', b', L, hi, hfuel, hs, .inl ?_, rfl, rfl, rfl⟩
    have := hs.itCount
    simp only [IterCfg.finished, Except.ok.injEq, decide_eq_true_eq]
    rw [this]; simp
  exact ⟨_, by rw [run_eq, hex], rfl⟩

/-! ### Voting -/

theorem npMax_fp {A : Type} (as : List A) (f : A → ℝ) :
    npMax (as.map fun a => (FP.fin (f a) : FP R)) = pyMax (as.map fun a => FP.fin (f a)) := by
  have hnan : ∀ x : ℝ, isNan (FP.fin x : FP R) = false := by
    intro x
    show (!(FNum.eq (.fin x) (.fin x))) = false
    simp [FNum.eq]
  cases as with
  | nil => rfl
  | cons a as =>
    simp only [List.map_cons, npMax, pyMax]
    congr 1
    generalize f a = m
    induction as generalizing m with
    | nil => rfl
    | cons b as ih =>
      simp only [List.map_cons, List.foldl_cons, hnan, Bool.false_eq_true, ↓reduceIte]
      split
      · exact ih _
      · exact ih _

/-- **C29** with rounding: trust is exactly 1, the belief in a claim is the (correctly rounded)
quotient of its number of sources and the largest number of sources of a claim; so the
scores are positive, at most 1, and 1 for the claims with the most sources. -/
theorem C29_rounded (hN : Precise R N) (l : List (S × V × X)) (am : Bool)
    (f : Option (V → X → X → Option (FP R))) (d : Dataset S V X (FP R)) (h : Dataset.mk' l am f = .ok d)
    (hl : l ≠ []) (hsize : (allSources l).card ≤ N) (clock : Nat → FP R) :
    ∃ r, votingRun d clock = .ok r ∧ Complete l r ∧ Within r (fun y => 0 < y ∧ y ≤ 1) ∧ OneAttained r ∧
      (∀ s x, r.trust.get? s = some x → x = FP.fin 1) ∧
      ∃ m ∈ allClaims l, (∀ c ∈ allClaims l, (sourcesOf l c).card ≤ (sourcesOf l m).card) ∧
        ∀ v x, (v, x) ∈ allClaims l → (r.belief.get? v).bind (fun d => d.get? x) =
          some (R.rnd ((sourcesOf l (v, x)).card / (sourcesOf l m).card)) := by
  obtain rfl := ((mk'_ok_iff l one_ne_zero_fp am f d).1 h).1
  have hS : (sources l).length ≤ N := by rw [length_sources]; exact hsize
  have hm : (datasetOf l f).mats = matsOf l f := rfl
  have h0 : (matsOf l f).numClaims ≠ 0 := fun e => hl ((numClaims_zero l f).1 e)
  obtain ⟨m, hmc, hmax, hle⟩ := pyMax_fp (R := R) (claims_ne hl) (fun c => ((sourcesOf l c).card : ℝ))
  have hm0 : 0 < (sourcesOf l m).card := (sourcesOf_nonempty l hmc).card_pos
  have hm0' : (0 : ℝ) < (sourcesOf l m).card := by exact_mod_cast hm0
  set Q : V × X → ℝ := fun c => (sourcesOf l c).card / (sourcesOf l m).card with hQ
  obtain ⟨G, hG⟩ : ∃ G : V × X → FP R, ∀ c, G c = R.rnd (Q c) := ⟨fun c => R.rnd (Q c), fun _ => rfl⟩
  have hb : ((claims l).map fun c => (FP.fin ((sourcesOf l c).card : ℝ) : FP R)).map
      (· /. FP.fin ((sourcesOf l m).card : ℝ)) = (claims l).map G := by
    rw [List.map_map]
    apply List.map_congr_left
    intro c _
    simp only [Function.comp_apply]
    rw [FP.div_fin _ hm0'.ne', hG]
  have hones : (ones (matsOf l f).numSources : Vec (FP R)) = (sources l).map fun _ => FP.fin 1 := by
    show (ones (sources l).length : Vec (FP R)) = _
    rw [ones_eq]
    simp only [FP.one_eq]
  have hsz : Sized (matsOf l f) ((sources l).map fun _ => (FP.fin 1 : FP R))
      ((claims l).map G) := ⟨by simp [matsOf], by simp [matsOf]⟩
  obtain ⟨e1, e2⟩ := labels_ok l f hsz
  have hrange : ∀ c ∈ claims l, ∃ y, G c = FP.fin y ∧ 0 < y ∧ y ≤ 1 := by
    intro c hc
    have h1 : (1 : ℝ) ≤ (sourcesOf l c).card := by exact_mod_cast (sourcesOf_nonempty l hc).card_pos
    have h2 : ((sourcesOf l m).card : ℝ) ≤ N := by exact_mod_cast (card_sourcesOf_le l m).trans hS
    obtain ⟨y, hy, -, hy'⟩ := hN.quot (x := Q c) (div_le_div₀ (by linarith) h1 hm0' h2)
      ((div_le_one hm0').2 (hle c hc))
    exact ⟨y, (hG c).trans hy, hy'⟩
  refine ⟨resultOf l ((sources l).map fun _ => FP.fin 1) ((claims l).map G)
    (clock 1 -. clock 0) none, ?_, complete_resultOf _ _ _ _ _, ⟨?_, ?_⟩, ⟨?_, ?_⟩, ?_,
    m, (mem_allClaims l).2 hmc, ?_, ?_⟩
  · unfold votingRun
    simp only [hm, h0, ↓reduceIte, sourceCounts_fp l f hN hS, npMax_fp, hmax, hones, hb, e1, e2, bind, Except.bind,
      pure, Except.pure]
    rfl
  · intro s x hx
    rw [trust_resultOf] at hx
    split at hx
    · cases hx; exact ⟨1, rfl, one_pos, le_rfl⟩
    · cases hx
  · intro v x b hb'
    rw [belief_resultOf] at hb'
    split at hb'
    · rename_i hc
      cases hb'
      obtain ⟨y, hy, hy'⟩ := hrange _ hc
      exact ⟨y, hy, hy'⟩
    · cases hb'
  · obtain ⟨s, hs⟩ := List.exists_mem_of_ne_nil _ (sources_ne hl)
    exact ⟨s, by rw [trust_resultOf, if_pos hs]⟩
  · refine ⟨m.1, m.2, ?_⟩
    rw [belief_resultOf, if_pos hmc]
    have : Q m = 1 := div_self hm0'.ne'
    have hGm : G (m.1, m.2) = FP.fin 1 := by rw [hG]; show R.rnd (Q m) = _; rw [this, R.one]; rfl
    rw [hGm]
  · intro s x hx
    rw [trust_resultOf] at hx
    split at hx
    · cases hx; rfl
    · cases hx
  · intro c hc
    exact Nat.cast_le.1 (hle c ((mem_allClaims l).1 hc))
  · intro v x hc
    rw [belief_resultOf, if_pos ((mem_allClaims l).1 hc)]
    exact congrArg some (hG _)

/-! ### binary64 -/

/-- IEEE doubles are precise up to `2 ^ 53`. -/
theorem C31_binary64 : Precise (.binary64 ω) (2 ^ 53) := by
  refine ⟨fun n hn => ?_, ?_⟩
  · show Double.rnd n = _
    have hlt : (n : ℝ) < 2 ^ 1024 := by
      have h1 : (n : ℝ) ≤ 2 ^ 53 := by exact_mod_cast hn
      exact h1.trans_lt (pow_lt_pow_right₀ one_lt_two (by norm_num))
    rw [Double.rnd_nonneg (Nat.cast_nonneg n), Double.roundNonneg_nat hn, if_neg (not_le.2 hlt)]
  · have e : (1 : ℝ) / ((2 ^ 53 : Nat) : ℝ) = 2 ^ (-53 : ℤ) := by
      rw [zpow_neg, one_div]; norm_num
    have hlog : Int.log 2 ((2 : ℝ) ^ (-53 : ℤ)) = -53 := by
      have := Int.log_zpow (R := ℝ) (b := 2) (by norm_num) (-53)
      exact_mod_cast this
    obtain ⟨k, hk⟩ := Double.pow_multiple (a := -53) (e := Double.lastPlace ((2 : ℝ) ^ (-53 : ℤ)))
      (by unfold Double.lastPlace; omega)
    refine ⟨2 ^ (-53 : ℤ), ?_, Double.two_zpow_pos _⟩
    show Double.rnd _ = _
    rw [e, Double.rnd_nonneg (Double.two_zpow_pos _).le, Double.roundNonneg_multiple hk, if_neg]
    rw [not_le]
    have h1 : (2 : ℝ) ^ (-53 : ℤ) ≤ 1 := zpow_le_one_of_nonpos₀ (by norm_num) (by norm_num)
    exact h1.trans_lt (one_lt_pow₀ one_lt_two (by norm_num))

/-- **C31** for numpy's float64: datasets with `sources² · claims ≤ 2⁵³`. -/
theorem C31_float64 (l : List (S × V × X)) (am : Bool) (f : Option (V → X → X → Option (FP (.binary64 ω))))
    (d : Dataset S V X (FP (.binary64 ω))) (h : Dataset.mk' l am f = .ok d)
    (hsize : (allSources l).card ^ 2 * (allClaims l).card ≤ 2 ^ 53) (it : IterCfg (FP (.binary64 ω))) (p : Prior)
    (fuel : Nat) (clock : Nat → FP (.binary64 ω)) (st : IterState (FP (.binary64 ω))) (r : Result S V X (FP (.binary64 ω)))
    (hr : (⟨.sums, it, some p⟩ : AlgCfg (FP (.binary64 ω))).run d fuel clock st = .ok r)
    (k : Nat) (hk : r.iterations = some k) (hk1 : 1 ≤ k) :
    Complete l r ∧ Within r (fun y => 0 ≤ y ∧ y ≤ 1) ∧ OneAttained r :=
  C31_sums C31_binary64 (by norm_num) l am f d h hsize it p fuel clock st r hr k hk hk1

/-- The hypotheses hold for a concrete dataset and configuration. -/
example (clock : Nat → FP (.binary64 ω)) : ∃ (d : Dataset Nat Nat Nat (FP (.binary64 ω))) (r : Result Nat Nat Nat (FP (.binary64 ω))),
    Dataset.mk' [(0, 0, 1), (1, 0, 2), (1, 1, 5), (2, 0, 2)] false none = .ok d ∧
    (⟨.sums, .fixed 20, some .voted⟩ : AlgCfg (FP (.binary64 ω))).run d 100 clock = .ok r ∧
    Within r (fun y => 0 ≤ y ∧ y ≤ 1) ∧ OneAttained r := by
  have hd := (mk'_ok_iff [(0, 0, 1), (1, 0, 2), (1, 1, 5), (2, 0, 2)] (one_ne_zero_fp (R := .binary64 ω)) false none _).2
    ⟨rfl, .inr (by simp [NoRepeats]), by simp [optImpBad]⟩
  have hsize : (allSources [(0, 0, 1), (1, 0, 2), (1, 1, 5), (2, 0, 2)]).card ^ 2 *
      (allClaims [(0, 0, 1), (1, 0, 2), (1, 1, 5), (2, 0, 2)]).card ≤ 2 ^ 53 := by decide
  obtain ⟨r, hr, hk⟩ := C31_sums_fixed C31_binary64 (by norm_num) _ _ _ _ hd (by simp) hsize 20 .voted 100
    (by norm_num) clock {}
  exact ⟨_, r, hd, hr, (C31_float64 _ _ _ _ hd hsize _ _ _ _ _ r hr 20 hk (by norm_num)).2⟩

end TD
