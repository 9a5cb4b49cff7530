import Verif.Lemmas.SameIterations
import Verif.Lemmas.CrhCosine
import Verif.Props.DistanceDouble
/-!
# C85: what a threshold means for the cosine measure in double precision
-/

namespace TD
open Spec Double
attribute [-instance] instBEqProd
variable {S V X : Type} [DecidableEq S] [DecidableEq V] [DecidableEq X] {ω : Platform}

/-- **C85.** The same for the cosine measure (that of the default iterator): Sums and AverageLog in double precision end only if
the exact cosine distance between the trust scores of the last two partial results is below the threshold, and go on only if it is
not, up to `(sources + 2) / 2 ^ 48`. -/
theorem C85_stopping_cosine (l : List (S × V × X)) (am : Bool) (f : Option (V → X → X → Option (FP (.binary64 ω))))
    (d : Dataset S V X (FP (.binary64 ω))) (h : Dataset.mk' l am f = .ok d)
    (hsize : (allSources l).card ^ 2 * (allClaims l).card ≤ 2 ^ 53) (k : Kind (FP (.binary64 ω)))
    (hk : k = .sums ∨ k = .averageLog ∧ ∃ s, 2 ≤ (claimsOf l s).card) (p : Prior)
    (th : ℝ) (lim : Int) (fuel : Nat) (clock : Nat → FP (.binary64 ω)) (st : IterState (FP (.binary64 ω)))
    (rs : List (Result S V X (FP (.binary64 ω))))
    (hr : (⟨k, .conv (some .cosine) (FP.fin th) lim, some p⟩ : AlgCfg (FP (.binary64 ω))).runIter d fuel clock st = .ok rs)
    (i : Nat) (r r' : Result S V X (FP (.binary64 ω))) (hri : rs[i]? = some r) (hri' : rs[i + 1]? = some r') :
    ∃ t t' : S → ℝ, (∀ s ∈ allSources l, r.trust.get? s = some (FP.fin (t s)) ∧ r'.trust.get? s = some (FP.fin (t' s))) ∧
      (i + 2 < rs.length → th ≤ distance .cosine (allSources l) t t' + ((allSources l).card + 2) / 2 ^ 48) ∧
      (i + 2 = rs.length → distance .cosine (allSources l) t t' < th + ((allSources l).card + 2) / 2 ^ 48) := by
  obtain rfl := ((mk'_ok_iff l (fp_one_ne_zero _) am f d).1 h).1
  have hk' : k = .sums ∨ k = .averageLog := by rcases hk with h | ⟨h, -⟩ <;> simp [h]
  have hlog : k.logsInit = true := by rcases hk' with rfl | rfl <;> rfl
  have husums : k ≠ .unboundedSums := by rcases hk' with rfl | rfl <;> simp
  set c : AlgCfg (FP (.binary64 ω)) := ⟨k, .conv (some .cosine) (FP.fin th) lim, some p⟩ with hc
  obtain ⟨-, q1, q2⟩ := conv_partial_results (fp_one_ne_zero _) l am f _ h c husums ((logsInit_eq k).symm.trans hlog) (some .cosine) (FP.fin th) lim rfl fuel clock st rs hr
  -- the trust scores are doubles in [0, 1]
  have hnum : ∀ (j : Nat) (u : Result S V X (FP (.binary64 ω))), rs[j]? = some u → ∃ t : S → ℝ,
      (∀ s ∈ allSources l, u.trust.get? s = some (FP.fin (t s))) ∧ u.trust.map Prod.snd = (sources l).map (fun s => FP.fin (t s)) ∧
      (∀ s ∈ sources l, |t s| ≤ 1) ∧ (j = 0 → ∀ s ∈ sources l, t s = 0) ∧ (j ≠ 0 → ∃ s ∈ allSources l, t s = 1) := by
    intro j u hj
    have hr2 := hr
    rw [runIter_eq] at hr2
    cases he : c.exec (matsOf l f) fuel st with
    | error e => rw [he] at hr2; cases hr2
    | ok out =>
      rw [he] at hr2
      have hrs := Except.ok.inj hr2
      have hu := List.mem_of_getElem? hj
      rw [← hrs] at hu hj
      obtain ⟨q, hq, hqu⟩ := List.mem_map.1 hu
      have hqm : q.2 ∈ out.log := by
        rw [← enum_map_snd out.log]
        exact List.mem_map_of_mem hq
      obtain ⟨-, hsz⟩ := exec_sized (matsOf_wf l f) he
      obtain ⟨F, hF⟩ := exists_map (nodup_sources l) (hsz q.2 hqm).1
      have hget : ∀ s ∈ allSources l, u.trust.get? s = some (F s) := by
        intro s hs
        rw [← hqu, hF, trust_resultOf, if_pos ((mem_allSources l).1 hs)]
      have hfin : (∀ s ∈ allSources l, ∃ y, F s = FP.fin y ∧ 0 ≤ y ∧ y ≤ 1) ∧ (j = 0 → ∀ s ∈ allSources l, F s = FP.fin 0) ∧
          (j ≠ 0 → ∃ s ∈ allSources l, F s = FP.fin 1) := by
        cases j with
        | zero =>
          refine ⟨fun s hs => ⟨0, ?_, le_rfl, zero_le_one⟩, fun _ s hs => ?_, fun h => absurd rfl h⟩
          all_goals
            have hz := init_log_zero hk' hlog he
            rw [List.getElem?_map, enum_getElem?] at hj
            cases h0 : out.log[0]? with
            | none => rw [h0] at hj; simp at hj
            | some e0 =>
              rw [h0] at hj
              simp only [Option.map_some, Option.some.injEq] at hj
              have e2 := hget s hs
              have hz' := hz e0 h0
              have hzm : e0.trust = (sources l).map fun _ => (FP.fin 0 : FP (.binary64 ω)) := by
                rw [hz', zeros, FP.zero_eq, List.map_const']
                rfl
              rw [← hj, hzm, trust_resultOf, if_pos ((mem_allSources l).1 hs)] at e2
              exact (Option.some.inj e2).symm
        | succ j =>
          have hju : rs[j + 1]? = some u := by rw [← hrs]; exact hj
          have hW : Complete l u ∧ Within u (fun y => 0 ≤ y ∧ y ≤ 1) ∧ OneAttained u := by
            rcases hk with rfl | ⟨rfl, hmul⟩
            · exact (C31_sums_iter C31_binary64 (by norm_num) l am f _ h hsize _ p fuel clock st rs hr (j + 1) (by omega) u hju)
            · have hit : u.iterations = some (j + 1) := by
                rw [List.getElem?_map, enum_getElem?] at hj
                cases h0 : out.log[j + 1]? with
                | none => rw [h0] at hj; simp at hj
                | some e0 =>
                  rw [h0] at hj
                  simp only [Option.map_some, Option.some.injEq] at hj
                  obtain ⟨_, _, _, _, hl1, _⟩ := log_of_exec he
                  rw [← hj]
                  exact congrArg some ((hl1 hlog).2 _ _ h0)
              exact ((C83_average_log l am f _ h hsize hmul _ p fuel clock st).2.1 rs hr u (List.mem_of_getElem? hju) _ hit (by omega))
          refine ⟨fun s hs => hW.2.1.1 s _ (hget s hs), fun h => absurd h (by omega), fun _ => ?_⟩
          obtain ⟨s, h1⟩ := hW.2.2.1
          have hs : s ∈ allSources l := (hW.1.1 s).1 (by rw [h1]; rfl)
          have := hget s hs
          rw [h1] at this
          exact ⟨s, hs, (Option.some.inj this).symm⟩
      obtain ⟨hfin, hz0, hz1⟩ := hfin
      choose! t ht using hfin
      refine ⟨t, fun s hs => by rw [hget s hs, (ht s hs).1], ?_, ?_, ?_, ?_⟩
      · have e1 : u.trust.map Prod.snd = (sources l).map F := by
          rw [← hqu, hF]
          show ((sources l).zip ((sources l).map F)).map Prod.snd = _
          rw [List.map_snd_zip (by simp)]
        rw [e1]
        exact List.map_congr_left fun s hs => (ht s ((mem_allSources l).2 hs)).1
      · intro s hs
        obtain ⟨e, y0, y1⟩ := ht s ((mem_allSources l).2 hs)
        rwa [abs_of_nonneg y0]
      · intro h0 s hs
        have h1 := (ht s ((mem_allSources l).2 hs)).1
        rw [hz0 h0 s ((mem_allSources l).2 hs)] at h1
        exact (FNum.fin.inj h1).symm
      · intro h0
        obtain ⟨s, hs, e⟩ := hz1 h0
        have h1 := (ht s hs).1
        rw [e] at h1
        exact ⟨s, hs, (FNum.fin.inj h1).symm⟩
  obtain ⟨t, ht1, ht2, ht3, hz, -⟩ := hnum i r hri
  have hone : i ≠ 0 → ∃ s ∈ allSources l, t s = 1 := by
    intro h0
    obtain ⟨t2, a1, -, -, -, a5⟩ := hnum i r hri
    obtain ⟨s, hs, e⟩ := a5 h0
    refine ⟨s, hs, ?_⟩
    have := (a1 s hs).symm.trans (ht1 s hs)
    rw [e] at this
    exact (FNum.fin.inj (Option.some.inj this)).symm
  obtain ⟨t', ht1', ht2', ht3', -, hone'⟩ := hnum (i + 1) r' hri'
  refine ⟨t, t', fun s hs => ⟨ht1 s hs, ht1' s hs⟩, ?_⟩
  have hl : l ≠ [] := by
    rintro rfl
    rw [runIter_eq, exec_empty _ _ _ _ (by rfl)] at hr
    cases hr
  have hn : (allSources l).card ≤ 2 ^ 40 := by
    have h1 : 0 < (allClaims l).card := Finset.card_pos.2 (allClaims_nonempty hl)
    by_contra hc
    push Not at hc
    have : (2 ^ 40) ^ 2 * 1 ≤ (allSources l).card ^ 2 * (allClaims l).card :=
      Nat.mul_le_mul (Nat.pow_le_pow_left hc.le 2) h1
    omega
  have long : ∀ v : S → ℝ, (∃ s ∈ allSources l, v s = 1) → 1 / 4 ≤ len2 (allSources l) v := by
    rintro v ⟨s, hs, e⟩
    have := len2_one (l := l) (v := v) ⟨s, (mem_allSources l).1 hs, e⟩
    linarith
  obtain ⟨x, hx, herr⟩ : ∃ x, getDistance (some .cosine) ((sources l).map fun s => (FP.fin (t s) : FP (.binary64 ω)))
      ((sources l).map fun s => FP.fin (t' s)) = .ok (FP.fin x) ∧
      |x - Spec.distance .cosine (allSources l) t t'| ≤ ((allSources l).card + 2) / 2 ^ 48 := by
    by_cases h0 : i = 0
    · refine ⟨1, cosine_zero hl hn t t' (hz h0) ht3', ?_⟩
      have e : Spec.distance .cosine (allSources l) t t' = 1 := by
        simp only [Spec.distance]
        rw [if_pos]
        left
        unfold len2
        rw [Finset.sum_eq_zero fun s hs => by rw [hz h0 s ((mem_allSources l).1 hs)]; norm_num, Real.sqrt_zero]
      rw [e, sub_self, abs_zero]
      positivity
    · exact cosine_computed hl hn t t' ht3 ht3' (long t (hone h0)) (long t' (hone' (by omega)))
  have hdist : ∀ y, DistanceOf (some .cosine) (r.trust.map Prod.snd) (r'.trust.map Prod.snd) y → y = FP.fin x := by
    intro y hy
    have : getDistance (some .cosine) (r.trust.map Prod.snd) (r'.trust.map Prod.snd) = .ok y := by
      rcases hy with hy | hy
      · exact hy
      · rw [C85_symmetric]; exact hy
    rw [ht2, ht2', hx] at this
    exact (Except.ok.inj this).symm
  obtain ⟨lo, hi⟩ := abs_le.1 herr
  constructor
  · intro hi2
    obtain ⟨y, hy, hfar⟩ := q1 i r r' hri hri'
    rw [hdist y hy, FP.lt_fin] at hfar
    have := of_decide_eq_false (hfar hi2)
    linarith
  · intro hi2
    rcases q2 with ⟨j, u, u', y, hj, hu, hu', hy, hlt⟩ | ⟨a, -, hb⟩
    · obtain rfl : j = i := by omega
      rw [hri] at hu
      rw [hri'] at hu'
      cases hu; cases hu'
      rw [hdist y hy, FP.lt_fin] at hlt
      have := of_decide_eq_true hlt
      linarith
    · exfalso
      have hb' : CannotContinue l a k := hb
      rcases hk' with rfl | rfl <;> exact hb'

/-- The hypotheses of `C85_stopping_cosine` hold for a run of Sums that converges: three partial results. -/
example (clock : Nat → FP (.binary64 ω)) : ∃ (d : Dataset Nat Nat Nat (FP (.binary64 ω))) (rs : List (Result Nat Nat Nat (FP (.binary64 ω)))),
    Dataset.mk' [(0, 0, 0)] false none = .ok d ∧
    (⟨.sums, .conv (some .cosine) (FP.fin (1 / 2)) 5, some .fixed⟩ : AlgCfg (FP (.binary64 ω))).runIter d 100 clock = .ok rs ∧ rs.length = 3 := by
  have hd := (mk'_ok_iff [(0, 0, 0)] (one_ne_zero_fp (R := .binary64 ω)) false none _).2
    ⟨rfl, .inr (by simp [NoRepeats]), by simp [optImpBad]⟩
  have hhalf : Rep (.binary64 ω) (1 / 2) := by
    have := rep64_pow (ω := ω) (e := -1) (by norm_num) (by norm_num)
    rw [zpow_neg_one] at this
    rwa [one_div]
  have hs : sources [((0 : Nat), (0 : Nat), (0 : Nat))] = [0] := rfl
  have hc : (allSources [((0 : Nat), (0 : Nat), (0 : Nat))]).card = 1 := by decide
  have d1 : getDistance (some .cosine) [(FP.fin 0 : FP (.binary64 ω))] [FP.fin 1] = .ok (FP.fin 1) :=
    cosine_zero (l := [((0 : Nat), (0 : Nat), (0 : Nat))]) (by simp) (by rw [hc]; norm_num) (fun _ => 0) (fun _ => 1) (fun _ _ => rfl)
      (fun _ _ => by norm_num)
  obtain ⟨y, d2, hy⟩ : ∃ y, getDistance (some .cosine) [(FP.fin 1 : FP (.binary64 ω))] [FP.fin 1] = .ok (FP.fin y) ∧ y < 1 / 2 := by
    have h1 : 1 / 4 ≤ len2 (allSources [((0 : Nat), (0 : Nat), (0 : Nat))]) (fun _ => 1) :=
      (by norm_num : (1 : ℝ) / 4 ≤ 1).trans (len2_one ⟨0, by rw [hs]; simp, rfl⟩)
    obtain ⟨y, hy, he⟩ := cosine_computed (ω := ω) (l := [((0 : Nat), (0 : Nat), (0 : Nat))]) (by simp) (by rw [hc]; norm_num)
      (fun _ => 1) (fun _ => 1) (fun _ _ => by norm_num) (fun _ _ => by norm_num) h1 h1
    rw [cosine_single _ hc (fun _ _ => one_pos) (fun _ _ => one_pos), hc, sub_zero] at he
    refine ⟨y, hy, (le_abs_self y).trans_lt (he.trans_lt ?_)⟩
    norm_num
  have l1 : Arith.lt (FP.fin 1 : FP (.binary64 ω)) (FP.fin (1 / 2)) = false := by
    rw [FP.lt_fin]; exact decide_eq_false (by norm_num)
  have l2 : Arith.lt (FP.fin y : FP (.binary64 ω)) (FP.fin (1 / 2)) = true := by
    rw [FP.lt_fin]; exact decide_eq_true hy
  have hz : (zeros 1 : Vec (FP (.binary64 ω))) = [FP.fin 0] := by simp [zeros, FP.zero_eq]
  have hi : (⟨.sums, .conv (some .cosine) (FP.fin (1 / 2)) 5, some .fixed⟩ : AlgCfg (FP (.binary64 ω))).init
      (matsOf [((0 : Nat), (0 : Nat), (0 : Nat))] none) = .ok ([FP.fin 0], [FP.fin (1 / 2)]) := by
    show (Except.ok (zeros 1, [(Arith.lit 1 2 : FP (.binary64 ω))]) : Except PyErr _) = _
    rw [hz, FP.lit_eq, show ((1 : ℤ) : ℝ) / ((2 : ℕ) : ℝ) = 1 / 2 by norm_num, show (Rounding.binary64 ω).rnd (1 / 2) = FP.fin (1 / 2) from hhalf]
  have he : ∃ out, (⟨.sums, .conv (some .cosine) (FP.fin (1 / 2)) 5, some .fixed⟩ : AlgCfg (FP (.binary64 ω))).exec
      (matsOf [((0 : Nat), (0 : Nat), (0 : Nat))] none) 100 {} = .ok out ∧ out.log.length = 3 := by
    refine ⟨⟨_, _, _, _⟩, (exec_ok_iff _ _ _ _ _).2 ⟨(show (1 : Nat) ≠ 0 by decide), _, _, 2, ⟨2, some (FP.fin y), 0⟩, _, _, _, hi, by norm_num,
      Steps.cons (st' := ⟨1, some (FP.fin 1), 0⟩) rfl (single_body _ (by norm_num) hhalf) ?_
        (Steps.cons (st' := ⟨2, some (FP.fin y), 0⟩) ?_ (single_body _ (by norm_num) rep_one) ?_ (.refl _ _ _)), .inl ?_, rfl, rfl, rfl⟩, rfl⟩
    · simp only [IterCfg.compare, d1, bind, Except.bind, pure, Except.pure]
    · simp only [IterCfg.finished, IterState.below, l1]
      rfl
    · simp only [IterCfg.compare, d2, bind, Except.bind, pure, Except.pure]
    · simp only [IterCfg.finished, IterState.below, l2]
      rfl
  obtain ⟨out, ho, hlen⟩ := he
  refine ⟨_, _, hd, by rw [runIter_eq, ho], ?_⟩
  rw [List.length_map, ← hlen, ← List.length_map (f := Prod.snd), enum_map_snd]

end TD
