import Verif.Lemmas.SameIterations
import Verif.Lemmas.FixedSums
import Verif.Props.ConvergenceAvlog
/-!
# C100: convergence in double precision and in exact arithmetic

The convergence iterator compares a *computed* distance of two *computed* vectors of trust scores with the threshold. The theorems
say when that comparison has the outcome it would have in exact arithmetic, so that a run in double precision ends after the same
number of iterations as the exact run, with each of the four measures.
-/

namespace TD
open Spec Double Ex
attribute [-instance] instBEqProd
variable {S V X : Type} [DecidableEq S] [DecidableEq V] [DecidableEq X] {ω : Platform}

theorem distance_swap {A : Type} (F : Finset A) (m : Measure) (v w : A → ℝ) :
    distance m F v w = distance m F w v := by
  cases m with
  | l1 => exact Finset.sum_congr rfl fun a _ => abs_sub_comm _ _
  | l2 =>
    simp only [distance, len2]
    congr 1
    exact Finset.sum_congr rfl fun a _ => by ring
  | lInf =>
    simp only [distance]
    congr 1
    funext a
    exact abs_sub_comm _ _
  | cosine =>
    simp only [distance]
    have e : ∑ a ∈ F, v a * w a = ∑ a ∈ F, w a * v a := Finset.sum_congr rfl fun a _ => mul_comm _ _
    rw [e, mul_comm (len2 F v)]
    exact if_congr or_comm rfl rfl

/-- The states of the iterator in an exact run. -/
theorem exact_traj {c : AlgCfg Ex} {l : List (S × V × X)} {f : Option (V → X → X → Option Ex)} {x0 : Scores S V X}
    {step : Scores S V X → Scores S V X} {cmp : Scores S V X → (S → ℝ) × (S → ℝ)} {Inv : Scores S V X → Prop}
    (_ : Implements c l f x0 step cmp Inv) (hl : l ≠ []) {m : Measure} {th : ℝ} {lim : Int}
    (hc : c.iterator = .conv (some m) (fin th) lim)
    (hcmp : ∀ q, cmp q = (q.1, (step q).1) ∨ cmp q = ((step q).1, q.1)) :
    Implements.Traj c l x0 step cmp
      (fun k => ⟨k, if k = 0 then none else some (fin (stepChange m l step x0 (k - 1))), 0⟩) := by
  refine ⟨rfl, fun k => ?_⟩
  rw [hc]
  have hd : getDistance (some m) (repS l (cmp (step^[k] x0)).1) (repS l (cmp (step^[k] x0)).2) =
      .ok (fin (stepChange m l step x0 k)) := by
    have e2 : (step (step^[k] x0)).1 = (step^[k + 1] x0).1 := by rw [Function.iterate_succ_apply']
    have hg := getDistance_eq (nodup_sources l) (sources_ne hl) m
    simp only [sources_toFinset] at hg
    unfold repS stepChange
    rcases hcmp (step^[k] x0) with e | e
    · rw [e, e2]; exact hg _ _
    · rw [e, e2, distance_swap _ m]; exact hg _ _
  simp only [IterCfg.compare, hd]
  rfl

/-- Where an exact run ends. -/
theorem exact_ended {c : AlgCfg Ex} {l : List (S × V × X)} {f : Option (V → X → X → Option Ex)} {x0 : Scores S V X}
    {step : Scores S V X → Scores S V X} {cmp : Scores S V X → (S → ℝ) × (S → ℝ)} {Inv : Scores S V X → Prop}
    (H : Implements c l f x0 step cmp Inv) (hl : l ≠ []) {m : Measure} {th : ℝ} {lim : Int}
    (hc : c.iterator = .conv (some m) (fin th) lim)
    (hcmp : ∀ q, cmp q = (q.1, (step q).1) ∨ cmp q = ((step q).1, q.1))
    {fuel : Nat} {st : IterState Ex} {r} (h : c.exec (matsOf l f) fuel st = .ok r) :
    ∃ k, r.iterations = k + 1 ∧ stepChange m l step x0 k < th ∧ ∀ j < k, th ≤ stepChange m l step x0 j := by
  have ht := exact_traj H hl hc hcmp
  obtain ⟨-, h1, h2⟩ := H.exec_traj ht hl fuel st r h
  rw [hc] at h1 h2
  cases hk : r.iterations with
  | zero =>
    rw [hk] at h1
    simp only [IterCfg.finished, IterState.below, ↓reduceIte, Bool.false_eq_true] at h1
    split at h1 <;> cases h1
  | succ k =>
    rw [hk] at h1 h2
    refine ⟨k, rfl, ?_, fun j hj => ?_⟩
    · simp only [IterCfg.finished, IterState.below, Nat.add_sub_cancel, Nat.succ_ne_zero, ↓reduceIte, lt_eq] at h1
      split at h1
      · rename_i hlt; exact of_decide_eq_true hlt
      · split at h1 <;> cases h1
    · have := h2 (j + 1) (by omega)
      simp only [IterCfg.finished, IterState.below, Nat.add_sub_cancel, Nat.succ_ne_zero, ↓reduceIte, lt_eq] at this
      split at this
      · cases this
      · rename_i hlt; exact not_lt.1 (of_decide_eq_false (Bool.eq_false_iff.2 hlt))

/-- Where an exact run does end. -/
theorem exact_runs {c : AlgCfg Ex} {l : List (S × V × X)} {f : Option (V → X → X → Option Ex)} {x0 : Scores S V X}
    {step : Scores S V X → Scores S V X} {cmp : Scores S V X → (S → ℝ) × (S → ℝ)} {Inv : Scores S V X → Prop}
    (H : Implements c l f x0 step cmp Inv) (hl : l ≠ []) {m : Measure} {th : ℝ} {lim : Int}
    (hc : c.iterator = .conv (some m) (fin th) lim)
    (hcmp : ∀ q, cmp q = (q.1, (step q).1) ∨ cmp q = ((step q).1, q.1)) (hfin : ∀ t b, c.finish t b = .ok (t, b))
    {k : Nat} (h1 : stepChange m l step x0 k < th) (h2 : ∀ j < k, th ≤ stepChange m l step x0 j) (hlim : (k : Int) < lim)
    {fuel : Nat} (hfuel : k + 1 < fuel) (clock : Nat → Ex) (st : IterState Ex) :
    ∃ r, c.run (datasetOf l f) fuel clock st = .ok r ∧ r.iterations = some (k + 1) := by
  obtain ⟨r, hr, hit, -⟩ := H.exec_of_traj (exact_traj H hl hc hcmp) hl st hfuel
    (by
      rw [hc]
      simp only [IterCfg.finished, IterState.below, Nat.add_sub_cancel, Nat.succ_ne_zero, ↓reduceIte, lt_eq, h1, decide_true])
    (by
      intro i hi
      rw [hc]
      have hlt : ¬ ((i : Nat) : Int) ≥ lim := by omega
      cases i with
      | zero => simp only [IterCfg.finished, IterState.below, ↓reduceIte, Bool.false_eq_true, hlt]
      | succ i =>
        have := not_lt.2 (h2 i (by omega))
        simp only [IterCfg.finished, IterState.below, Nat.add_sub_cancel, Nat.succ_ne_zero, ↓reduceIte,
          lt_eq, this, decide_false, Bool.false_eq_true, hlt])
    (hfin _ _)
  exact ⟨_, by rw [run_eq, hr], by simp [resultOf, hit]⟩

theorem Spec.Sizes.few {l : List (S × V × X)} (hl : l ≠ []) {a b w : Nat} (h : Sizes l a b w) :
    (allSources l).card ≤ 2 ^ 40 := by
  by_contra hc
  have h1 : 1 ≤ (allClaims l).card := (allClaims_nonempty hl).card_pos
  have : (2 ^ 40) ^ 2 * 1 ≤ (allSources l).card ^ 2 * (allClaims l).card :=
    Nat.mul_le_mul (Nat.pow_le_pow_left (by omega) 2) h1
  have := h.big
  omega

/-- The iterations of a run with rounding and of an exact run, in the general form. -/
theorem Tracks.same {c : AlgCfg (FP (.binary64 ω))} {l : List (S × V × X)} {f : Option (V → X → X → Option (FP (.binary64 ω)))}
    {x0 : Scores S V X} {Q : S → Prop} {step : Scores S V X → Scores S V X} {q w W : Nat}
    (H : Tracks c l f x0 Q step q w W) (hl : l ≠ []) (hS : (allSources l).card ≤ 2 ^ 40) {m : Measure}
    {th : ℝ} {lim : Int} (hc : c.iterator = .conv (some m) (FP.fin th) lim) {N : Nat}
    (hlast : stepChange m l step x0 N < th) (hbef : ∀ j < N, th ≤ stepChange m l step x0 j)
    (hr : 53 + W + N * w ≤ 1022) (hK : (N + 1) * q + 1 ≤ 2 ^ 51)
    (hgap : ∀ j ≤ N, blur m l ((N + 1) * q + 1) < |stepChange m l step x0 j - th|)
    (hlim : (N : Int) < lim) {fuel : Nat} (hfuel : N + 1 < fuel) (st : IterState (FP (.binary64 ω))) :
    ∃ r, c.exec (matsOf l f) fuel st = .ok r ∧ r.iterations = N + 1 := by
  have g1 := hgap N le_rfl
  rw [abs_of_neg (by linarith)] at g1
  obtain ⟨r, hr1, hle⟩ := H.ends hl hS hc hr hK rfl (by unfold stepChange at *; linarith) hlim hfuel st
  obtain ⟨k, hk, h1, -⟩ := H.ended hl hS hc hr1 hle (by simpa using hr) hK rfl
  refine ⟨r, hr1, ?_⟩
  by_contra hne
  have hkN : k < N := by omega
  have g2 := hgap k hkN.le
  have g3 := hbef k hkN
  rw [abs_of_nonneg (by linarith)] at g2
  unfold stepChange at *
  linarith

/-- **C100.** Sums in double precision ends after the same number of iterations as in exact arithmetic, with nearly the same scores,
if no exact distance is so close to the threshold that rounding could decide the comparison. -/
theorem C100_sums (l : List (S × V × X)) (am : Bool) (f : Option (V → X → X → Option (FP (.binary64 ω))))
    (d : Dataset S V X (FP (.binary64 ω))) (h : Dataset.mk' l am f = .ok d)
    (f' : Option (V → X → X → Option Ex)) (d' : Dataset S V X Ex) (h' : Dataset.mk' l am f' = .ok d')
    (hl : l ≠ []) {a b w : Nat} (hsize : Sizes l a b w) (p : Prior) (m : Measure) (th : ℝ)
    (lim lim' : Int) (fuel fuel' : Nat) (clock : Nat → FP (.binary64 ω)) (clock' : Nat → Ex)
    (st : IterState (FP (.binary64 ω))) (st' : IterState Ex) (r' : Result S V X Ex)
    (hr' : (⟨.sums, .conv (some m) (fin th) lim', some p⟩ : AlgCfg Ex).run d' fuel' clock' st' = .ok r')
    (N : Nat) (hN : r'.iterations = some N) (hlim : (N : Int) ≤ lim) (hfuel : N < fuel)
    (hw : 53 + (N + 1) * w ≤ 1022) (hq : N * (a + b + 1) + 1 ≤ 2 ^ 51)
    (hgap : ∀ j < N, blur m l (N * (a + b + 1) + 1) < |stepChange m l (sumsStep l) ((fun _ => 0), priorOf l p) j - th|) :
    ∃ r, (⟨.sums, .conv (some m) (FP.fin th) lim, some p⟩ : AlgCfg (FP (.binary64 ω))).run d fuel clock st = .ok r ∧
      r.iterations = some N ∧ CloseRuns r r' ((N * (a + b + 1) + 1 : Nat) / 2 ^ 51) := by
  obtain rfl := ((mk'_ok_iff l one_ne_zero_fp am f d).1 h).1
  obtain rfl := mk'_ex h'
  have hrun := hr'
  rw [run_eq] at hr'
  cases he : (⟨.sums, .conv (some m) (fin th) lim', some p⟩ : AlgCfg Ex).exec (matsOf l f') fuel' st' with
  | error e => rw [he] at hr'; cases hr'
  | ok out =>
    rw [he] at hr'
    cases hr'
    obtain ⟨k, hk, h1, h2⟩ := exact_ended (sums_implements f' hl _ p) hl rfl (fun q => .inl rfl) he
    have e : out.iterations = N := by simpa [resultOf] using hN
    obtain rfl : k + 1 = N := by omega
    obtain ⟨r, hr, hit⟩ := (tracks_sums f hl hsize (.conv (some m) (FP.fin th) lim) p).same hl (hsize.few hl) rfl h1 h2
      (by have : (k + 1 + 1) * w = 2 * w + k * w := by ring
          omega) hq (fun j hj => hgap j (by omega)) (by omega) hfuel st
    have hR : (⟨.sums, .conv (some m) (FP.fin th) lim, some p⟩ : AlgCfg (FP (.binary64 ω))).run (datasetOf l f) fuel clock st =
        .ok (resultOf l r.trust r.belief (clock 1 -. clock 0) (some r.iterations)) := by rw [run_eq, hr]
    refine ⟨_, hR, by simp [resultOf, hit], ?_⟩
    exact C99_sums_exact l am f _ h f' _ h' hl hsize _ _ p fuel fuel' clock clock' st st' _ _ hR hrun (k + 1)
      (by simp [resultOf, hit]) hN (by omega) hw hq

/-- **C100.** The same for AverageLog: it ends after the same number of iterations as in exact arithmetic, with nearly the same scores,
if no exact distance is so close to the threshold that rounding could decide the comparison. -/
theorem C100_average_log (l : List (S × V × X)) (am : Bool) (f : Option (V → X → X → Option (FP (.binary64 ω))))
    (d : Dataset S V X (FP (.binary64 ω))) (h : Dataset.mk' l am f = .ok d)
    (f' : Option (V → X → X → Option Ex)) (d' : Dataset S V X Ex) (h' : Dataset.mk' l am f' = .ok d')
    (hl2 : ∃ s, 2 ≤ (claimsOf l s).card) {a b w : Nat} (hsize : Sizes l a b w) (hw53 : w ≤ 53) (p : Prior) (m : Measure) (th : ℝ)
    (lim lim' : Int) (fuel fuel' : Nat) (clock : Nat → FP (.binary64 ω)) (clock' : Nat → Ex)
    (st : IterState (FP (.binary64 ω))) (st' : IterState Ex) (r' : Result S V X Ex)
    (hr' : (⟨.averageLog, .conv (some m) (fin th) lim', some p⟩ : AlgCfg Ex).run d' fuel' clock' st' = .ok r')
    (N : Nat) (hN : r'.iterations = some N) (hlim : (N : Int) ≤ lim) (hfuel : N < fuel)
    (hw : 53 + w + N * (2 * w + 1) ≤ 1022) (hq : N * (a + b + 5) + 1 ≤ 2 ^ 51)
    (hgap : ∀ j < N, blur m l (N * (a + b + 5) + 1) < |stepChange m l (avlogStep l) ((fun _ => 0), priorOf l p) j - th|) :
    ∃ r, (⟨.averageLog, .conv (some m) (FP.fin th) lim, some p⟩ : AlgCfg (FP (.binary64 ω))).run d fuel clock st = .ok r ∧
      r.iterations = some N ∧ CloseRuns r r' ((N * (a + b + 5) + 1 : Nat) / 2 ^ 51) := by
  obtain rfl := ((mk'_ok_iff l one_ne_zero_fp am f d).1 h).1
  obtain rfl := mk'_ex h'
  have hrun := hr'
  have hl : l ≠ [] := by
    rintro rfl
    obtain ⟨s, hs⟩ := hl2
    have : claimsOf ([] : List (S × V × X)) s = ∅ := rfl
    rw [this] at hs
    simp at hs
  rw [run_eq] at hr'
  cases he : (⟨.averageLog, .conv (some m) (fin th) lim', some p⟩ : AlgCfg Ex).exec (matsOf l f') fuel' st' with
  | error e => rw [he] at hr'; cases hr'
  | ok out =>
    rw [he] at hr'
    cases hr'
    obtain ⟨k, hk, h1, h2⟩ := exact_ended (avlog_implements f' _ p hl2) hl rfl (fun q => .inr rfl) he
    have e : out.iterations = N := by simpa [resultOf] using hN
    obtain rfl : k + 1 = N := by omega
    obtain ⟨r, hr, hit⟩ := (tracks_avlog f hl hsize hw53 hl2 (.conv (some m) (FP.fin th) lim) p).same hl (hsize.few hl) rfl h1 h2
      (by have : (k + 1) * (2 * w + 1) = k * (2 * w + 1) + (2 * w + 1) := by ring
          omega) hq (fun j hj => hgap j (by omega)) (by omega) hfuel st
    have hR : (⟨.averageLog, .conv (some m) (FP.fin th) lim, some p⟩ : AlgCfg (FP (.binary64 ω))).run (datasetOf l f) fuel clock st =
        .ok (resultOf l r.trust r.belief (clock 1 -. clock 0) (some r.iterations)) := by rw [run_eq, hr]
    refine ⟨_, hR, by simp [resultOf, hit], ?_⟩
    exact C99_average_log_exact l am f _ h f' _ h' hl2 hsize hw53 _ _ p fuel fuel' clock clock' st st' _ _ hR hrun (k + 1)
      (by simp [resultOf, hit]) hN (by omega) hw hq


/-- What the number of iterations of a run with rounding says about the exact distances. -/
theorem Tracks.tells {c : AlgCfg (FP (.binary64 ω))} {l : List (S × V × X)} {f : Option (V → X → X → Option (FP (.binary64 ω)))}
    {x0 : Scores S V X} {Q : S → Prop} {step : Scores S V X → Scores S V X} {q w W : Nat}
    (H : Tracks c l f x0 Q step q w W) (hl : l ≠ []) (hS : (allSources l).card ≤ 2 ^ 40) {m : Measure}
    {th : ℝ} {lim : Int} (hc : c.iterator = .conv (some m) (FP.fin th) lim) {fuel : Nat}
    {clock : Nat → FP (.binary64 ω)} {st : IterState (FP (.binary64 ω))} :
    (∀ r, c.run (datasetOf l f) fuel clock st = .ok r → ∀ N, r.iterations = some N →
      53 + W + (N - 1) * w ≤ 1022 → N * q + 1 ≤ 2 ^ 51 →
      1 ≤ N ∧ stepChange m l step x0 (N - 1) < th + blur m l (N * q + 1) ∧
      ∀ j, j + 1 < N → th - blur m l (N * q + 1) ≤ stepChange m l step x0 j) ∧
    (∀ N, 1 ≤ N → 53 + W + (N - 1) * w ≤ 1022 → N * q + 1 ≤ 2 ^ 51 →
      stepChange m l step x0 (N - 1) < th - blur m l (N * q + 1) → (N : Int) ≤ lim → N < fuel →
      ∃ r k, c.run (datasetOf l f) fuel clock st = .ok r ∧ r.iterations = some k ∧ k ≤ N) := by
  constructor
  · intro r hr N hN hw hq
    rw [run_eq] at hr
    cases he : c.exec (matsOf l f) fuel st with
    | error e => rw [he] at hr; cases hr
    | ok out =>
      rw [he] at hr
      cases hr
      have e : out.iterations = N := by simpa [resultOf] using hN
      obtain ⟨k, hk, h1, h2⟩ := H.ended hl hS hc he e.le hw hq rfl
      obtain rfl : k + 1 = N := by omega
      exact ⟨by omega, h1, fun j hj => h2 j (by omega)⟩
  · intro N hN hw hq hd hlim hfuel
    obtain ⟨k, rfl⟩ : ∃ k, N = k + 1 := ⟨N - 1, by omega⟩
    obtain ⟨r, hr, hle⟩ := H.ends hl hS hc (by simpa using hw) hq rfl hd (by omega) hfuel st
    exact ⟨_, r.iterations, by rw [run_eq, hr], rfl, hle⟩

/-- **C100.** Without any assumption on the distances: if Sums ends after `N` iterations in double precision, then the exact
distance of the last two vectors of trust scores is below the threshold and no earlier one is, up to the stated rounding error; and it
does end, at the latest after the first iteration whose exact distance is below the threshold by more than that error. -/
theorem C100_sums_any (l : List (S × V × X)) (am : Bool) (f : Option (V → X → X → Option (FP (.binary64 ω))))
    (d : Dataset S V X (FP (.binary64 ω))) (h : Dataset.mk' l am f = .ok d)
    (hl : l ≠ []) {a b w : Nat} (hsize : Sizes l a b w) (p : Prior) (m : Measure) (th : ℝ)
    (lim : Int) (fuel : Nat) (clock : Nat → FP (.binary64 ω)) (st : IterState (FP (.binary64 ω))) :
    (∀ r, (⟨.sums, .conv (some m) (FP.fin th) lim, some p⟩ : AlgCfg (FP (.binary64 ω))).run d fuel clock st = .ok r →
      ∀ N, r.iterations = some N → 1 ≤ N → 53 + (N + 1) * w ≤ 1022 → N * (a + b + 1) + 1 ≤ 2 ^ 51 →
      stepChange m l (sumsStep l) ((fun _ => 0), priorOf l p) (N - 1) < th + blur m l (N * (a + b + 1) + 1) ∧
      ∀ j, j + 1 < N → th - blur m l (N * (a + b + 1) + 1) ≤ stepChange m l (sumsStep l) ((fun _ => 0), priorOf l p) j) ∧
    (∀ N, 1 ≤ N → 53 + (N + 1) * w ≤ 1022 → N * (a + b + 1) + 1 ≤ 2 ^ 51 →
      stepChange m l (sumsStep l) ((fun _ => 0), priorOf l p) (N - 1) < th - blur m l (N * (a + b + 1) + 1) →
      (N : Int) ≤ lim → N < fuel →
      ∃ r k, (⟨.sums, .conv (some m) (FP.fin th) lim, some p⟩ : AlgCfg (FP (.binary64 ω))).run d fuel clock st = .ok r ∧
        r.iterations = some k ∧ k ≤ N) := by
  obtain rfl := ((mk'_ok_iff l one_ne_zero_fp am f d).1 h).1
  obtain ⟨h1, h2⟩ := (tracks_sums f hl hsize (.conv (some m) (FP.fin th) lim) p).tells hl (hsize.few hl) rfl
    (fuel := fuel) (clock := clock) (st := st)
  have e : ∀ N, 53 + (N + 1) * w ≤ 1022 → N ≥ 1 → 53 + 2 * w + (N - 1) * w ≤ 1022 := by
    intro N h h1
    obtain ⟨k, rfl⟩ : ∃ k, N = k + 1 := ⟨N - 1, by omega⟩
    have : (k + 1 + 1) * w = 2 * w + k * w := by ring
    rw [Nat.add_sub_cancel]
    omega
  refine ⟨fun r hr N hN hN1 hw hq => ?_, fun N hN hw => h2 N hN (e N hw hN)⟩
  exact (h1 r hr N hN (e N hw hN1) hq).2

/-- **C100.** The same for AverageLog: if it ends after `N` iterations in double precision, then the exact
distance of the last two vectors of trust scores is below the threshold and no earlier one is, up to the stated rounding error; and it
does end, at the latest after the first iteration whose exact distance is below the threshold by more than that error. -/
theorem C100_average_log_any (l : List (S × V × X)) (am : Bool) (f : Option (V → X → X → Option (FP (.binary64 ω))))
    (d : Dataset S V X (FP (.binary64 ω))) (h : Dataset.mk' l am f = .ok d)
    (hl2 : ∃ s, 2 ≤ (claimsOf l s).card) {a b w : Nat} (hsize : Sizes l a b w) (hw53 : w ≤ 53) (p : Prior) (m : Measure) (th : ℝ)
    (lim : Int) (fuel : Nat) (clock : Nat → FP (.binary64 ω)) (st : IterState (FP (.binary64 ω))) :
    (∀ r, (⟨.averageLog, .conv (some m) (FP.fin th) lim, some p⟩ : AlgCfg (FP (.binary64 ω))).run d fuel clock st = .ok r →
      ∀ N, r.iterations = some N → 1 ≤ N → 53 + w + N * (2 * w + 1) ≤ 1022 → N * (a + b + 5) + 1 ≤ 2 ^ 51 →
      stepChange m l (avlogStep l) ((fun _ => 0), priorOf l p) (N - 1) < th + blur m l (N * (a + b + 5) + 1) ∧
      ∀ j, j + 1 < N → th - blur m l (N * (a + b + 5) + 1) ≤ stepChange m l (avlogStep l) ((fun _ => 0), priorOf l p) j) ∧
    (∀ N, 1 ≤ N → 53 + w + N * (2 * w + 1) ≤ 1022 → N * (a + b + 5) + 1 ≤ 2 ^ 51 →
      stepChange m l (avlogStep l) ((fun _ => 0), priorOf l p) (N - 1) < th - blur m l (N * (a + b + 5) + 1) →
      (N : Int) ≤ lim → N < fuel →
      ∃ r k, (⟨.averageLog, .conv (some m) (FP.fin th) lim, some p⟩ : AlgCfg (FP (.binary64 ω))).run d fuel clock st = .ok r ∧
        r.iterations = some k ∧ k ≤ N) := by
  have hl : l ≠ [] := by
    rintro rfl
    obtain ⟨s, hs⟩ := hl2
    have : claimsOf ([] : List (S × V × X)) s = ∅ := rfl
    rw [this] at hs
    simp at hs
  obtain rfl := ((mk'_ok_iff l one_ne_zero_fp am f d).1 h).1
  obtain ⟨h1, h2⟩ := (tracks_avlog f hl hsize hw53 hl2 (.conv (some m) (FP.fin th) lim) p).tells hl (hsize.few hl) rfl
    (fuel := fuel) (clock := clock) (st := st)
  have e : ∀ N, 53 + w + N * (2 * w + 1) ≤ 1022 → N ≥ 1 → 53 + (3 * w + 1) + (N - 1) * (2 * w + 1) ≤ 1022 := by
    intro N h h1
    obtain ⟨k, rfl⟩ : ∃ k, N = k + 1 := ⟨N - 1, by omega⟩
    have : (k + 1) * (2 * w + 1) = k * (2 * w + 1) + (2 * w + 1) := by ring
    rw [Nat.add_sub_cancel]
    omega
  refine ⟨fun r hr N hN hN1 hw hq => ?_, fun N hN hw => h2 N hN (e N hw hN)⟩
  exact (h1 r hr N hN (e N hw hN1) hq).2

namespace SameIterations

/-- Three sources, two of which agree. -/
def triples : List (Nat × Nat × Nat) := [(0, 0, 1), (1, 0, 2), (2, 0, 2)]

theorem sizes : Sizes triples 1 2 3 := by
  refine ⟨fun s => ?_, fun c => ?_, by decide, by decide⟩
  · by_cases hs : s ∈ sources triples
    · have : ∀ s ∈ sources triples, (claimsOf triples s).card ≤ 1 := by decide
      exact this s hs
    · have : claimsOf triples s = ∅ := by
        rw [Finset.eq_empty_iff_forall_notMem]
        intro c hc
        exact hs (mem_sources_of_sourcesOf _ ((mem_sourcesOf _).2 ((mem_claimsOf _).1 hc)))
      rw [this]; simp
  · by_cases hs : c ∈ claims triples
    · have : ∀ c ∈ claims triples, (sourcesOf triples c).card ≤ 2 := by decide
      exact this c hs
    · have : sourcesOf triples c = ∅ := by
        rw [Finset.eq_empty_iff_forall_notMem]
        intro s hc
        exact hs (mem_claims_of_claimsOf _ ((mem_claimsOf _).2 ((mem_sourcesOf _).1 hc)))
      rw [this]; simp

theorem step {q : Scores Nat Nat Nat} {x y : ℝ} (h1 : q.2 (0, 1) = x) (h2 : q.2 (0, 2) = y) (hxy : x ≤ y)
    (hy : 0 < y) :
    (sumsStep triples q).1 0 = x / y ∧ (sumsStep triples q).1 1 = 1 ∧ (sumsStep triples q).1 2 = 1 ∧
      (sumsStep triples q).2 (0, 1) = x / (2 * y) ∧ (sumsStep triples q).2 (0, 2) = 1 := by
  have c0 : claimsOf triples 0 = {(0, 1)} := by decide
  have c1 : claimsOf triples 1 = {(0, 2)} := by decide
  have c2 : claimsOf triples 2 = {(0, 2)} := by decide
  have s1 : sourcesOf triples (0, 1) = {0} := by decide
  have s2 : sourcesOf triples (0, 2) = {1, 2} := by decide
  have aS : allSources triples = {0, 1, 2} := by decide
  have aC : allClaims triples = {(0, 1), (0, 2)} := by decide
  have t0 : sumTrust triples q.2 0 = x := by simp [sumTrust, c0, h1]
  have t1 : sumTrust triples q.2 1 = y := by simp [sumTrust, c1, h2]
  have t2 : sumTrust triples q.2 2 = y := by simp [sumTrust, c2, h2]
  have b1 : sumBelief triples (sumTrust triples q.2) (0, 1) = x := by simp [sumBelief, s1, t0]
  have b2 : sumBelief triples (sumTrust triples q.2) (0, 2) = 2 * y := by simp [sumBelief, s2, t1, t2]; ring
  have eS : top (allSources triples) (sumTrust triples q.2) = y := by
    refine Ex.top_eq_of ?_ ⟨1, by rw [aS]; simp, t1⟩
    rw [aS]
    intro s hs
    fin_cases hs
    · exact t0.le.trans hxy
    · exact t1.le
    · exact t2.le
  have eC : top (allClaims triples) (sumBelief triples (sumTrust triples q.2)) = 2 * y := by
    refine Ex.top_eq_of ?_ ⟨(0, 2), by rw [aC]; simp, b2⟩
    rw [aC]
    intro s hs
    fin_cases hs
    · exact b1.le.trans (by linarith)
    · exact b2.le
  simp only [sumsStep, normBoth, scaled, eS, eC, t0, t1, t2, b1, b2]
  refine ⟨trivial, div_self hy.ne', div_self hy.ne', trivial, div_self (by positivity)⟩

/-- The scores after each iteration. -/
theorem scores (j : Nat) : ((sumsStep triples)^[j + 1] ((fun _ => 0), priorOf triples .fixed)).1 0 = 1 / 2 ^ j ∧
    ((sumsStep triples)^[j + 1] ((fun _ => 0), priorOf triples .fixed)).1 1 = 1 ∧
    ((sumsStep triples)^[j + 1] ((fun _ => 0), priorOf triples .fixed)).1 2 = 1 ∧
    ((sumsStep triples)^[j + 1] ((fun _ => 0), priorOf triples .fixed)).2 (0, 1) = 1 / 2 ^ (j + 1) ∧
    ((sumsStep triples)^[j + 1] ((fun _ => 0), priorOf triples .fixed)).2 (0, 2) = 1 := by
  induction j with
  | zero =>
    obtain ⟨h1, h2, h3, h4, h5⟩ := step (q := ((fun _ => 0), priorOf triples .fixed)) (x := 1 / 2) (y := 1 / 2) rfl rfl
      le_rfl (by norm_num)
    simp only [Function.iterate_succ, Function.iterate_zero, Function.comp, id]
    exact ⟨by rw [h1]; norm_num, h2, h3, by rw [h4]; norm_num, h5⟩
  | succ j ih =>
    obtain ⟨-, -, -, i1, i2⟩ := ih
    have hle : (1 : ℝ) / 2 ^ (j + 1) ≤ 1 := by
      rw [div_le_one (by positivity)]
      exact one_le_pow₀ one_le_two
    obtain ⟨h1, h2, h3, h4, h5⟩ := step i1 i2 hle one_pos
    rw [Function.iterate_succ_apply']
    exact ⟨by rw [h1, div_one], h2, h3, by rw [h4]; field_simp; ring, h5⟩

theorem change0 : stepChange .l1 triples (sumsStep triples) ((fun _ => 0), priorOf triples .fixed) 0 = 3 := by
  have aS : allSources triples = {0, 1, 2} := by decide
  obtain ⟨h1, h2, h3, -⟩ := scores 0
  simp only [stepChange, distance, aS]
  rw [Finset.sum_insert (by decide), Finset.sum_insert (by decide), Finset.sum_singleton, h1, h2, h3]
  norm_num

theorem changes (j : Nat) :
    stepChange .l1 triples (sumsStep triples) ((fun _ => 0), priorOf triples .fixed) (j + 1) = 1 / 2 ^ (j + 1) := by
  have aS : allSources triples = {0, 1, 2} := by decide
  obtain ⟨h1, h2, h3, -⟩ := scores j
  obtain ⟨h1', h2', h3', -⟩ := scores (j + 1)
  simp only [stepChange, distance, aS]
  rw [Finset.sum_insert (by decide), Finset.sum_insert (by decide), Finset.sum_singleton, h1, h2, h3, h1', h2', h3']
  rw [sub_self, abs_zero, add_zero, add_zero, pow_succ]
  rw [abs_of_nonneg]
  · field_simp; ring
  · field_simp; norm_num

/-- The hypotheses are met: with the threshold 1/5 Sums needs four iterations on these triples, in both arithmetics. -/
example (clock : Nat → FP (.binary64 ω)) (clock' : Nat → Ex) : ∃ (d : Dataset Nat Nat Nat (FP (.binary64 ω)))
    (r : Result Nat Nat Nat (FP (.binary64 ω))) (d' : Dataset Nat Nat Nat Ex) (r' : Result Nat Nat Nat Ex),
    Dataset.mk' triples false none = .ok d ∧
    (⟨.sums, .conv (some .l1) (FP.fin (1 / 5)) 1000, some .fixed⟩ : AlgCfg (FP (.binary64 ω))).run d 100 clock = .ok r ∧
    Dataset.mk' triples false none = .ok d' ∧
    (⟨.sums, .conv (some .l1) (Ex.fin (1 / 5)) 1000, some .fixed⟩ : AlgCfg Ex).run d' 100 clock' = .ok r' ∧
    r.iterations = some 4 ∧ r'.iterations = some 4 ∧ CloseRuns r r' ((17 : Nat) / 2 ^ 51) := by
  have hd := (mk'_ok_iff triples (one_ne_zero_fp (R := .binary64 ω)) false none _).2
    ⟨rfl, .inr (by simp [triples, NoRepeats]), by simp [optImpBad]⟩
  have hd' := (mk'_ok_iff triples ex_one_ne_zero false none _).2
    ⟨rfl, .inr (by simp [triples, NoRepeats]), by simp [optImpBad]⟩
  obtain ⟨r', hr', hk'⟩ := exact_runs (sums_implements none (l := triples) (by simp [triples])
    (.conv (some .l1) (Ex.fin (1 / 5)) 1000) .fixed) (by simp [triples]) (m := .l1) rfl (fun q => .inl rfl)
    (fun _ _ => rfl) (k := 3) (by rw [changes]; norm_num) (fun j hj => by
      rcases j with _ | j
      · rw [change0]; norm_num
      · rw [changes, div_le_div_iff₀ (by norm_num) (by positivity)]
        have : (2 : ℝ) ^ (j + 1) ≤ 2 ^ 2 := pow_le_pow_right₀ one_le_two (by omega)
        linarith) (by norm_num) (fuel := 100) (by norm_num) clock' {}
  have hb : blur .l1 triples (4 * (1 + 2 + 1) + 1) < 1 / 100 := by
    have : (allSources triples).card = 3 := by decide
    simp only [blur]
    rw [this]
    norm_num
  obtain ⟨r, hr, hk, hc⟩ := C100_sums triples false none _ hd none _ hd' (by simp [triples]) sizes .fixed .l1 (1 / 5)
    1000 1000 100 100 clock clock' {} {} r' hr' 4 hk' (by norm_num) (by norm_num) (by norm_num) (by norm_num) (fun j hj => by
      refine hb.trans ?_
      rcases j with _ | _ | _ | _ | j
      · rw [change0]; norm_num
      · rw [changes, lt_abs]; left; norm_num
      · rw [changes, lt_abs]; left; norm_num
      · rw [changes, lt_abs]; right; norm_num
      · omega)
  exact ⟨_, r, _, r', hd, hr, hd', hr', hk, hk', hc⟩

end SameIterations

namespace Decides
open Fixed

/-- Four sources, three of which agree. -/
def triples : List (Nat × Nat × Nat) := [(0, 0, 1), (1, 0, 2), (2, 0, 2), (3, 0, 2)]

theorem sizes : Sizes triples 1 3 3 := by
  refine ⟨fun s => ?_, fun c => ?_, by decide, by decide⟩
  · by_cases hs : s ∈ sources triples
    · have : ∀ s ∈ sources triples, (claimsOf triples s).card ≤ 1 := by decide
      exact this s hs
    · have : claimsOf triples s = ∅ := by
        rw [Finset.eq_empty_iff_forall_notMem]
        intro c hc
        exact hs (mem_sources_of_sourcesOf _ ((mem_sourcesOf _).2 ((mem_claimsOf _).1 hc)))
      rw [this]; simp
  · by_cases hs : c ∈ claims triples
    · have : ∀ c ∈ claims triples, (sourcesOf triples c).card ≤ 3 := by decide
      exact this c hs
    · have : sourcesOf triples c = ∅ := by
        rw [Finset.eq_empty_iff_forall_notMem]
        intro s hc
        exact hs (mem_claims_of_claimsOf _ ((mem_claimsOf _).2 ((mem_sourcesOf _).1 hc)))
      rw [this]; simp

theorem step {q : Scores Nat Nat Nat} {x y : ℝ} (h1 : q.2 (0, 1) = x) (h2 : q.2 (0, 2) = y) (hxy : x ≤ y)
    (hy : 0 < y) :
    (sumsStep triples q).1 0 = x / y ∧ (sumsStep triples q).1 1 = 1 ∧ (sumsStep triples q).1 2 = 1 ∧
      (sumsStep triples q).1 3 = 1 ∧
      (sumsStep triples q).2 (0, 1) = x / (3 * y) ∧ (sumsStep triples q).2 (0, 2) = 1 := by
  have c0 : claimsOf triples 0 = {(0, 1)} := by decide
  have c1 : claimsOf triples 1 = {(0, 2)} := by decide
  have c2 : claimsOf triples 2 = {(0, 2)} := by decide
  have c3 : claimsOf triples 3 = {(0, 2)} := by decide
  have s1 : sourcesOf triples (0, 1) = {0} := by decide
  have s2 : sourcesOf triples (0, 2) = {1, 2, 3} := by decide
  have aS : allSources triples = {0, 1, 2, 3} := by decide
  have aC : allClaims triples = {(0, 1), (0, 2)} := by decide
  have t0 : sumTrust triples q.2 0 = x := by simp [sumTrust, c0, h1]
  have t1 : sumTrust triples q.2 1 = y := by simp [sumTrust, c1, h2]
  have t2 : sumTrust triples q.2 2 = y := by simp [sumTrust, c2, h2]
  have t3 : sumTrust triples q.2 3 = y := by simp [sumTrust, c3, h2]
  have b1 : sumBelief triples (sumTrust triples q.2) (0, 1) = x := by simp [sumBelief, s1, t0]
  have b2 : sumBelief triples (sumTrust triples q.2) (0, 2) = 3 * y := by simp [sumBelief, s2, t1, t2, t3]; ring
  have eS : top (allSources triples) (sumTrust triples q.2) = y := by
    refine Ex.top_eq_of ?_ ⟨1, by rw [aS]; simp, t1⟩
    rw [aS]
    intro s hs
    fin_cases hs
    · exact t0.le.trans hxy
    · exact t1.le
    · exact t2.le
    · exact t3.le
  have eC : top (allClaims triples) (sumBelief triples (sumTrust triples q.2)) = 3 * y := by
    refine Ex.top_eq_of ?_ ⟨(0, 2), by rw [aC]; simp, b2⟩
    rw [aC]
    intro s hs
    fin_cases hs
    · exact b1.le.trans (by linarith)
    · exact b2.le
  simp only [sumsStep, normBoth, scaled, eS, eC, t0, t1, t2, t3, b1, b2]
  refine ⟨trivial, div_self hy.ne', div_self hy.ne', div_self hy.ne', trivial, div_self (by positivity)⟩

/-- The largest change of a trust score in the first three iterations. -/
theorem changes :
    stepChange .lInf triples (sumsStep triples) ((fun _ => 0), priorOf triples .fixed) 0 = 1 ∧
    stepChange .lInf triples (sumsStep triples) ((fun _ => 0), priorOf triples .fixed) 1 = 2 / 3 ∧
    stepChange .lInf triples (sumsStep triples) ((fun _ => 0), priorOf triples .fixed) 2 = 2 / 9 := by
  have aS : allSources triples = {0, 1, 2, 3} := by decide
  obtain ⟨a0, a1, a2, a3, a4, a5⟩ := step (q := ((fun _ => 0), priorOf triples .fixed)) (x := 1 / 2) (y := 1 / 2) rfl rfl
    le_rfl (by norm_num)
  obtain ⟨b0, b1, b2, b3, b4, b5⟩ := step a4 a5 (by norm_num) one_pos
  obtain ⟨c0, c1, c2, c3, -⟩ := step b4 b5 (by norm_num) one_pos
  simp only [stepChange, distance, Function.iterate_succ, Function.iterate_zero, Function.comp, id]
  refine ⟨Ex.top_eq_of ?_ ⟨0, ?_, ?_⟩, Ex.top_eq_of ?_ ⟨0, ?_, ?_⟩, Ex.top_eq_of ?_ ⟨0, ?_, ?_⟩⟩
  · rw [aS]
    intro s hs
    fin_cases hs <;> simp only [a0, a1, a2, a3] <;> norm_num
  · rw [aS]; simp
  · rw [a0]; norm_num
  · rw [aS]
    intro s hs
    fin_cases hs <;> simp only [a0, a1, a2, a3, b0, b1, b2, b3] <;> norm_num [abs_le]
  · rw [aS]; simp
  · rw [a0, b0]; norm_num [abs_of_nonneg]
  · rw [aS]
    intro s hs
    fin_cases hs <;> simp only [c0, c1, c2, c3, b0, b1, b2, b3] <;> norm_num [abs_le]
  · rw [aS]; simp
  · rw [c0, b0]; norm_num [abs_of_nonneg]

abbrev rows : List (List Nat) := [[0], [1], [1], [1]]
abbrev cols : List (List Nat) := [[0], [1, 2, 3]]

theorem mats_rows : (matsOf triples none : Mats (FP (.binary64 ω))).sc.rows = onesAt rows ∧
    (matsOf triples none : Mats (FP (.binary64 ω))).sc.T.rows = onesAt cols := ⟨rfl, rfl⟩

/-- The threshold: the double next to 2/3 from above. -/
def threshold : Nat := 3074457345618258944

/-- Two iterations on natural numbers. -/
theorem computed : ∃ s1 s2, sumsOnce? rows cols [2 ^ 61, 2 ^ 61] = some s1 ∧ sumsOnce? rows cols s1.2 = some s2 ∧
    lInf? [0, 0, 0, 0] s1.1 = some (2 ^ 62) ∧ lInf? s1.1 s2.1 = some threshold := by
  have h : ((sumsOnce? rows cols [2 ^ 61, 2 ^ 61]).bind fun s1 => (sumsOnce? rows cols s1.2).map fun s2 =>
      decide (lInf? [0, 0, 0, 0] s1.1 = some (2 ^ 62) ∧ lInf? s1.1 s2.1 = some threshold)) = some true := by decide +kernel
  simp only [Option.bind_eq_some_iff, Option.map_eq_some_iff, decide_eq_true_eq] at h
  obtain ⟨s1, h1, s2, h2, h3, h4⟩ := h
  exact ⟨s1, s2, h1, h2, h3, h4⟩

theorem third_iteration (lim : Int) (hlim : 1000 ≤ lim) (fuel : Nat) (st : IterState (FP (.binary64 ω))) (r)
    (h : (⟨.sums, .conv (some .lInf) (val threshold) lim, some .fixed⟩ : AlgCfg (FP (.binary64 ω))).exec
      (matsOf triples none) fuel st = .ok r) : r.iterations ≠ 2 := by
  intro h2
  obtain ⟨s1, s2, c1, c2, d1, d2⟩ := computed
  obtain ⟨h0, t0, b0, n, st', t, b, L, hi, -, hs, hst, hf, hit, -⟩ := (exec_ok_iff _ _ _ _ _).1 h
  obtain rfl : n = 2 := hit.symm.trans h2
  have half : (Arith.lit 1 2 : FP (.binary64 ω)) = val (2 ^ 61) := by
    have : rn? (2 ^ 61) 1 = some (2 ^ 61) := by decide +kernel
    have := rn?_some (ω := ω) this
    rw [← this]
    show (Rounding.binary64 ω).rnd _ = _
    congr 1
    norm_num
  have hi' : (⟨.sums, .conv (some .lInf) (val threshold) lim, some .fixed⟩ : AlgCfg (FP (.binary64 ω))).init
      (matsOf triples none) = .ok (([0, 0, 0, 0] : List Nat).map val, ([2 ^ 61, 2 ^ 61] : List Nat).map val) := by
    have e : (zeros 4 : Vec (FP (.binary64 ω))) = ([0, 0, 0, 0] : List Nat).map val := by
      simp only [zeros, FP.zero_eq, ← val_zero]; rfl
    simp only [AlgCfg.init, priorBeliefs, half, bind, Except.bind, pure, Except.pure]
    rw [← e]
    rfl
  rw [hi'] at hi
  cases hi
  have g1 := sumsBody_val (ω := ω) (m := matsOf triples none) mats_rows.1 mats_rows.2 c1 (([0, 0, 0, 0] : List Nat).map val)
  have g2 := sumsBody_val (ω := ω) (m := matsOf triples none) mats_rows.1 mats_rows.2 c2 (s1.1.map val)
  have k1 : (IterCfg.conv (some .lInf) (val (ω := ω) threshold) lim).compare {} (([0, 0, 0, 0] : List Nat).map val)
      (s1.1.map val) = .ok ⟨1, some (val (2 ^ 62)), 0⟩ := by
    simp only [IterCfg.compare, lInf_val d1, bind, Except.bind, pure, Except.pure]
  have k2 : (IterCfg.conv (some .lInf) (val (ω := ω) threshold) lim).compare ⟨1, some (val (2 ^ 62)), 0⟩ (s1.1.map val)
      (s2.1.map val) = .ok ⟨2, some (val threshold), 0⟩ := by
    simp only [IterCfg.compare, lInf_val d2, bind, Except.bind, pure, Except.pure]
  have f0 : (IterCfg.conv (some .lInf) (val (ω := ω) threshold) lim).finished {} = .ok false := by
    have : ¬ lim ≤ 0 := by omega
    simp [IterCfg.finished, IterState.below, this]
  have f1 : (IterCfg.conv (some .lInf) (val (ω := ω) threshold) lim).finished ⟨1, some (val (2 ^ 62)), 0⟩ = .ok false := by
    have : ¬ lim ≤ 1 := by omega
    simp [IterCfg.finished, IterState.below, this, val_lt, threshold]
  have f2 : (IterCfg.conv (some .lInf) (val (ω := ω) threshold) lim).finished ⟨2, some (val threshold), 0⟩ = .ok false := by
    have : ¬ lim ≤ 2 := by omega
    simp [IterCfg.finished, IterState.below, this, val_lt]
  obtain ⟨rfl, rfl, rfl, -⟩ := hs.det (.cons f0 g1 k1 (.cons f1 g2 k2 (.refl _ _ _)))
  rcases hst with h | ⟨-, h⟩
  · rw [f2] at h; cases h
  · obtain ⟨a, c, h1, h2, h3⟩ := normalise2_ok (g := fun a b => ⟨s2.1.map val, a, a, b⟩) h
    cases h3

end Decides

/-- **C100.** The assumption on the distances is needed: there are triples and a threshold, a double, for which Sums makes two
iterations in exact arithmetic and three in double precision, whatever the order of the additions. -/
theorem C100_rounding_decides (clock : Nat → FP (.binary64 ω)) (clock' : Nat → Ex) :
    ∃ (l : List (Nat × Nat × Nat)) (th : ℝ) (d : Dataset Nat Nat Nat (FP (.binary64 ω))) (d' : Dataset Nat Nat Nat Ex)
      (r : Result Nat Nat Nat (FP (.binary64 ω))) (r' : Result Nat Nat Nat Ex),
      IsDouble th ∧ Dataset.mk' l false none = .ok d ∧ Dataset.mk' l false none = .ok d' ∧
      (⟨.sums, .conv (some .lInf) (FP.fin th) 1000, some .fixed⟩ : AlgCfg (FP (.binary64 ω))).run d 1001 clock = .ok r ∧
      (⟨.sums, .conv (some .lInf) (Ex.fin th) 1000, some .fixed⟩ : AlgCfg Ex).run d' 1001 clock' = .ok r' ∧
      r.iterations = some 3 ∧ r'.iterations = some 2 := by
  have hd := (mk'_ok_iff Decides.triples (one_ne_zero_fp (R := .binary64 ω)) false none _).2
    ⟨rfl, .inr (by simp [Decides.triples, NoRepeats]), by simp [optImpBad]⟩
  have hd' := (mk'_ok_iff Decides.triples ex_one_ne_zero false none _).2
    ⟨rfl, .inr (by simp [Decides.triples, NoRepeats]), by simp [optImpBad]⟩
  obtain ⟨e0, e1, e2⟩ := Decides.changes
  have hl : Decides.triples ≠ [] := by simp [Decides.triples]
  have hcard : (allSources Decides.triples).card = 4 := by decide
  have hb : ∀ k ≤ 3, blur .lInf Decides.triples (k * (1 + 3 + 1) + 1) < 1 / 100 := by
    intro k hk
    have : (k : ℝ) ≤ 3 := by exact_mod_cast hk
    simp only [blur]
    rw [hcard]
    push_cast
    rw [div_lt_iff₀ (by norm_num)]
    linarith
  set th : ℝ := (Decides.threshold : ℝ) / 2 ^ 62 with hth
  have t1 : 2 / 3 < th := by rw [hth, Decides.threshold]; norm_num
  have t2 : th < 7 / 10 := by rw [hth, Decides.threshold]; norm_num
  obtain ⟨r', hr', hk'⟩ := exact_runs (sums_implements none (l := Decides.triples) hl
    (.conv (some .lInf) (Ex.fin th) 1000) .fixed) hl (m := .lInf) rfl (fun q => .inl rfl)
    (fun _ _ => rfl) (k := 1) (by rw [e1]; exact t1) (fun j hj => by
      obtain rfl : j = 0 := by omega
      rw [e0]; linarith) (by norm_num) (fuel := 1001) (by norm_num) clock' {}
  obtain ⟨g1, g2⟩ := C100_sums_any Decides.triples false none _ hd hl Decides.sizes .fixed .lInf th 1000 1001 clock {}
  obtain ⟨r, k, hr, hk, hle⟩ := g2 3 (by norm_num) (by norm_num) (by norm_num) (by
    have := hb 3 le_rfl
    rw [e2]; linarith) (by norm_num) (by norm_num)
  have hrun := hr
  rw [run_eq] at hr
  cases he : (⟨.sums, .conv (some .lInf) (FP.fin th) 1000, some .fixed⟩ : AlgCfg (FP (.binary64 ω))).exec
      (matsOf Decides.triples none) 1001 {} with
  | error e => rw [he] at hr; cases hr
  | ok out =>
    rw [he] at hr
    have hit : out.iterations = k := by
      cases hr
      simpa [resultOf] using hk
    have n2 := Decides.third_iteration 1000 le_rfl 1001 {} out he
    obtain ⟨j, hj, -⟩ := (tracks_sums none hl Decides.sizes (.conv (some .lInf) (FP.fin th) 1000) .fixed).ended hl
      (Decides.sizes.few hl) rfl he (hit.le.trans hle) (by norm_num) (by norm_num) rfl
    have n1 : k ≠ 1 := by
      rintro rfl
      have := (g1 r hrun 1 hk le_rfl (by norm_num) (by norm_num)).1
      have := hb 1 (by norm_num)
      rw [show 1 - 1 = 0 from rfl, e0] at *
      linarith
    obtain rfl : k = 3 := by omega
    refine ⟨Decides.triples, th, _, _, r, r', ?_, hd, hd', hrun, hr', hk, hk'⟩
    have h3 : Fixed.rn? Decides.threshold 1 = some Decides.threshold := by decide +kernel
    have h4 := Fixed.rn?_some (ω := ω) h3
    rw [show ((Decides.threshold : ℕ) : ℝ) / (1 : ℕ) / 2 ^ 62 = th by rw [hth]; push_cast; ring] at h4
    exact ((C31_nearest (ω := ω) th).1 _ h4).1

end TD
