import Verif.Lemmas.InvestDouble
import Verif.Props.Finite
/-!
# C96: Investment and PooledInvestment in double precision, from scores that are not tiny
-/

namespace TD
open Spec
attribute [-instance] instBEqProd

variable {S V X : Type} [DecidableEq S] [DecidableEq V] [DecidableEq X]

theorem exists_labels {A α : Type} [DecidableEq A] {as : List A} (hn : as.Nodup) {t : List α} (h : t.length = as.length)
    (x : α) : ∃ F : A → α, t = as.map F := by
  refine ⟨fun a => (t[as.idxOf a]?).getD x, List.ext_getElem (by simpa using h) fun i h1 h2 => ?_⟩
  have hi : i < as.length := by simpa using h2
  rw [List.getElem_map, hn.idxOf_getElem i hi, List.getElem?_eq_getElem h1, Option.getD_some]

section
variable {α : Type} [Arith α]

/-- Consecutive entries of the log. -/
theorem Steps.consecutive {it : IterCfg α} {body : Vec α → Vec α → Except PyErr (Option (Step α))} {st : IterState α}
    {t b : Vec α} {n : Nat} {st1 t1 b1 L} (h : Steps it body st t b n st1 t1 b1 L) (k : Nat) (i : Nat) (e e' : LogEntry α)
    (h1 : (⟨k, t, b⟩ :: L)[i]? = some e) (h2 : (⟨k, t, b⟩ :: L)[i + 1]? = some e') :
    ∃ s, body e.trust e.belief = .ok (some s) ∧ e'.trust = s.trust ∧ e'.belief = s.belief := by
  induction h generalizing i k with
  | refl => simp at h2
  | cons hf hb hc hs ih =>
    cases i with
    | zero =>
      simp only [List.getElem?_cons_zero, Option.some.injEq, zero_add, List.getElem?_cons_succ] at h1 h2
      subst h1 h2
      exact ⟨_, hb, rfl, rfl⟩
    | succ i => exact ih _ i (by simpa using h1) (by simpa using h2)

end

section
variable {ω : Platform}

variable (l : List (S × V × X)) (f : Option (V → X → X → Option (FP (.binary64 ω))))

theorem within_labels {t b : Vec (FP (.binary64 ω))} (hs : Sized (matsOf l f) t b) {time it}
    {P : ℝ → Prop} (h : Within (resultOf l t b time it) P) :
    ∃ (T : S → ℝ) (B : V × X → ℝ), t = (sources l).map (fun s => FP.fin (T s)) ∧ b = (claims l).map (fun c => FP.fin (B c)) ∧
      (∀ s ∈ sources l, P (T s)) ∧ ∀ c ∈ claims l, P (B c) := by
  obtain ⟨F, rfl⟩ := exists_labels (nodup_sources l) hs.1 FP.nan
  obtain ⟨G, rfl⟩ := exists_labels (nodup_claims l) hs.2 FP.nan
  have h1 : ∀ s, ∃ y, s ∈ sources l → F s = FP.fin y ∧ P y := by
    intro s
    by_cases hs : s ∈ sources l
    · obtain ⟨y, hy⟩ := h.1 s (F s) (by rw [trust_resultOf, if_pos hs])
      exact ⟨y, fun _ => hy⟩
    · exact ⟨0, fun h => absurd h hs⟩
  have h2 : ∀ c, ∃ y, c ∈ claims l → G c = FP.fin y ∧ P y := by
    intro c
    by_cases hc : c ∈ claims l
    · obtain ⟨y, hy⟩ := h.2 c.1 c.2 (G c) (by rw [belief_resultOf, if_pos hc])
      exact ⟨y, fun _ => hy⟩
    · exact ⟨0, fun h => absurd h hc⟩
  choose T hT using h1
  choose B hB using h2
  exact ⟨T, B, List.map_congr_left fun s hs => (hT s hs).1, List.map_congr_left fun c hc => (hB c hc).1,
    fun s hs => (hT s hs).2, fun c hc => (hB c hc).2⟩

theorem invests_body (hl : l ≠ []) (hS : (allSources l).card ≤ 2 ^ 20) (hC : (allClaims l).card ≤ 2 ^ 20)
    {k : Kind (FP (.binary64 ω))} (hk : Invests k) {t b : Vec (FP (.binary64 ω))} (hs : Sized (matsOf l f) t b)
    {time it} (h : Within (resultOf l t b time it) Moderate) :
    ∃ s, k.body (matsOf l f) t b = .ok (some s) ∧ Normal l s.trust s.belief := by
  obtain ⟨T, B, rfl, rfl, hT, hB⟩ := within_labels l f hs h
  rw [← length_sources] at hS
  rw [← length_claims] at hC
  obtain ⟨g, h0, h1, rfl | rfl⟩ := hk
  · exact invest_normal l f hl hS hC h0 h1 T B hT hB
  · exact pooled_normal l f hl hS hC h0 h1 T B hT hB

variable {l f}

theorem invests_ne {k : Kind (FP (.binary64 ω))} (h : Invests k) : k ≠ .unboundedSums := by
  obtain ⟨g, -, -, rfl | rfl⟩ := h <;> simp

/-- **C96.** Investment and PooledInvestment in double precision with an exponent of at most 3/2, on at
most `2 ^ 20` sources and claims: if all scores are at least `2 ^ -600` (and at most `2 ^ 20`) after `K`
iterations, then the run with `K + 1` iterations succeeds, all its scores are finite and in `[0, 1]`, and the
largest trust and the largest belief are exactly 1.  So NaN, an infinity or an early stop can only
occur after some score has fallen below `2 ^ -600`. -/
theorem C96_next (l : List (S × V × X)) (am : Bool) (f : Option (V → X → X → Option (FP (.binary64 ω))))
    (d : Dataset S V X (FP (.binary64 ω))) (h : Dataset.mk' l am f = .ok d)
    (hS : (allSources l).card ≤ 2 ^ 20) (hC : (allClaims l).card ≤ 2 ^ 20)
    (k : Kind (FP (.binary64 ω))) (hk : Invests k) (p : Option Prior) (K : Nat)
    (fuel : Nat) (clock : Nat → FP (.binary64 ω)) (st : IterState (FP (.binary64 ω))) (r : Result S V X (FP (.binary64 ω)))
    (hr : (⟨k, .fixed K, p⟩ : AlgCfg (FP (.binary64 ω))).run d fuel clock st = .ok r) (hw : Within r Moderate)
    (fuel' : Nat) (hf : K + 1 < fuel') (clock' : Nat → FP (.binary64 ω)) (st' : IterState (FP (.binary64 ω))) :
    r.iterations = some K ∧
    ∃ r', (⟨k, .fixed (K + 1), p⟩ : AlgCfg (FP (.binary64 ω))).run d fuel' clock' st' = .ok r' ∧
      r'.iterations = some (K + 1) ∧ Complete l r' ∧ Within r' (fun y => 0 ≤ y ∧ y ≤ 1) ∧ OneAttained r' := by
  obtain ⟨rfl, -, -⟩ := (mk'_ok_iff l one_ne_zero_fp am f d).1 h
  rw [run_eq] at hr
  cases he : (⟨k, .fixed K, p⟩ : AlgCfg (FP (.binary64 ω))).exec (matsOf l f) fuel st with
  | error e => rw [he] at hr; cases hr
  | ok out =>
    rw [he] at hr
    cases hr
    obtain ⟨hz, -⟩ := exec_sized (matsOf_wf l f) he
    obtain ⟨h0, t0, b0, n, st1, t, b, L, hi, hn, hs, hst, hfin, hit, -⟩ := (exec_ok_iff _ _ _ _ _).1 he
    have hl : l ≠ [] := fun e => h0 ((numClaims_zero l f).2 e)
    have hfin' := (finish_other (c := ⟨k, .fixed K, p⟩) (invests_ne hk) t b).symm.trans hfin
    simp only [Except.ok.injEq, Prod.mk.injEq] at hfin'
    obtain ⟨rfl, rfl⟩ := hfin'
    obtain ⟨s, hb, hnorm⟩ := invests_body l f hl hS hC hk hz hw
    have hcount := hs.itCount
    have hnK : n = K := by
      rcases hst with hst | ⟨-, hst⟩
      · simp only [IterCfg.finished, Except.ok.injEq, decide_eq_true_eq] at hst
        rcases Nat.lt_or_ge K n with hlt | hge
        · obtain ⟨st2, t2, b2, L2, L3, s1, s2, -⟩ := hs.split K (by omega)
          have c1 := s1.itCount
          rw [show n - K = (n - K - 1) + 1 by omega] at s2
          cases s2 with
          | cons hfin _ _ _ =>
            simp only [IterCfg.finished, Except.ok.injEq, decide_eq_false_iff_not] at hfin
            simp only [zero_add] at c1
            omega
        · simp only [zero_add] at hcount
          omega
      · rw [hst] at hb; cases hb
    subst hnK
    refine ⟨congrArg some hit, ?_⟩
    have hs' : ∀ {st t b m st1 t1 b1 L}, Steps (.fixed n) (k.body (matsOf l f)) st t b m st1 t1 b1 L →
        Steps (.fixed (n + 1)) (k.body (matsOf l f)) st t b m st1 t1 b1 L := by
      intro st t b m st1 t1 b1 L h
      induction h with
      | refl => exact .refl _ _ _
      | cons hf hb hc _ ih =>
        refine .cons ?_ hb hc ih
        simp only [IterCfg.finished, Except.ok.injEq, decide_eq_false_iff_not] at hf ⊢
        omega
    have hone : Steps (.fixed (n + 1)) (k.body (matsOf l f)) st1 out.trust out.belief 1 { st1 with itCount := st1.itCount + 1 }
        s.trust s.belief [⟨st1.itCount + 1, s.trust, s.belief⟩] := by
      refine .cons ?_ hb rfl (.refl _ _ _)
      simp only [IterCfg.finished, Except.ok.injEq, decide_eq_false_iff_not]
      simp only [zero_add] at hcount
      omega
    have hex : (⟨k, .fixed (n + 1), p⟩ : AlgCfg (FP (.binary64 ω))).exec (matsOf l f) fuel' st' =
        .ok ⟨s.trust, s.belief, n + 1, initLog ⟨k, .fixed (n + 1), p⟩ t0 b0 ++ (L ++ [⟨st1.itCount + 1, s.trust, s.belief⟩])⟩ := by
      rw [exec_ok_iff]
      refine ⟨h0, t0, b0, n + 1, _, s.trust, s.belief, _, hi, hf, (hs' hs).append hone, .inl ?_, finish_other (invests_ne hk) _ _, rfl, rfl⟩
      simp only [IterCfg.finished, Except.ok.injEq, decide_eq_true_eq]
      simp only [zero_add] at hcount
      omega
    refine ⟨_, by rw [run_eq, hex], rfl, ?_⟩
    exact hnorm.result _ _

/-- **C96.** The same for consecutive partial results of `run_iter`, with any iterator. -/
theorem C96_next_iter (l : List (S × V × X)) (am : Bool) (f : Option (V → X → X → Option (FP (.binary64 ω))))
    (d : Dataset S V X (FP (.binary64 ω))) (h : Dataset.mk' l am f = .ok d)
    (hS : (allSources l).card ≤ 2 ^ 20) (hC : (allClaims l).card ≤ 2 ^ 20)
    (k : Kind (FP (.binary64 ω))) (hk : Invests k) (it : IterCfg (FP (.binary64 ω))) (p : Option Prior)
    (fuel : Nat) (clock : Nat → FP (.binary64 ω)) (st : IterState (FP (.binary64 ω)))
    (rs : List (Result S V X (FP (.binary64 ω))))
    (hr : (⟨k, it, p⟩ : AlgCfg (FP (.binary64 ω))).runIter d fuel clock st = .ok rs)
    (i : Nat) (r r' : Result S V X (FP (.binary64 ω))) (hi : rs[i]? = some r) (hi' : rs[i + 1]? = some r')
    (hw : Within r Moderate) : Complete l r' ∧ Within r' (fun y => 0 ≤ y ∧ y ≤ 1) ∧ OneAttained r' := by
  obtain ⟨rfl, -, -⟩ := (mk'_ok_iff l one_ne_zero_fp am f d).1 h
  rw [runIter_eq] at hr
  cases he : (⟨k, it, p⟩ : AlgCfg (FP (.binary64 ω))).exec (matsOf l f) fuel st with
  | error e => rw [he] at hr; cases hr
  | ok out =>
    rw [he] at hr
    cases hr
    obtain ⟨-, hz⟩ := exec_sized (matsOf_wf l f) he
    obtain ⟨h0, t0, b0, n, st1, t, b, L, -, hn, hs, hst, hfin, hit, hlog⟩ := (exec_ok_iff _ _ _ _ _).1 he
    have hl : l ≠ [] := fun e => h0 ((numClaims_zero l f).2 e)
    have hlog' : out.log = ⟨0, t0, b0⟩ :: L := by
      rw [hlog]
      obtain ⟨g, -, -, rfl | rfl⟩ := hk <;> rfl
    rw [hlog'] at hi hi' hz
    simp only [enum, List.map_map, List.getElem?_map, List.getElem?_zipIdx, Option.map_eq_some_iff] at hi hi'
    obtain ⟨_, ⟨e, he1, rfl⟩, rfl⟩ := hi
    obtain ⟨_, ⟨e', he2, rfl⟩, rfl⟩ := hi'
    obtain ⟨s, hb, h1, h2⟩ := hs.consecutive 0 i e e' he1 he2
    obtain ⟨s', hb', hnorm⟩ := invests_body l f hl hS hC hk (hz e (List.mem_of_getElem? he1)) hw
    rw [hb] at hb'
    simp only [Except.ok.injEq, Option.some.injEq] at hb'
    subst hb'
    simp only [Function.comp_apply]
    rw [h1, h2]
    exact hnorm.result _ _

/-- The scores before the first iteration are moderate. -/
theorem invest_start (l : List (S × V × X)) (hl : l ≠ []) (f : Option (V → X → X → Option (FP (.binary64 ω))))
    (hS : (allSources l).card ≤ 2 ^ 20) (hC : (allClaims l).card ≤ 2 ^ 20)
    (k : Kind (FP (.binary64 ω))) (hk : Invests k) (p : Prior)
    (fuel : Nat) (hf : 0 < fuel) (clock : Nat → FP (.binary64 ω)) (st : IterState (FP (.binary64 ω))) :
    ∃ r, (⟨k, .fixed 0, some p⟩ : AlgCfg (FP (.binary64 ω))).run (datasetOf l f) fuel clock st = .ok r ∧ Within r Moderate := by
  rw [← length_sources] at hS
  rw [← length_claims] at hC
  obtain ⟨b, hb, B, rfl, h1, h2⟩ := prior_begin l f (C31_binary64 (ω := ω)) hl (by norm_num)
    ((Nat.mul_le_mul hS hC).trans (by norm_num)) p
  have hz : Rep (.binary64 ω) (2 ^ (-53 : ℤ)) := rep64_pow (by norm_num) (by norm_num)
  have e : (1 : ℝ) / ((2 ^ 53 : Nat) : ℝ) = 2 ^ (-53 : ℤ) := by rw [zpow_neg, one_div]; norm_num
  have hlow := h2 (2 ^ (-53 : ℤ)) (by rw [e]; exact hz) (zpow_le_one_of_nonpos₀ (by norm_num) (by norm_num))
  have hones : (ones (matsOf l f).numSources : Vec (FP (.binary64 ω))) = (sources l).map fun _ => FP.fin 1 := by
    have : (matsOf l f).numSources = (sources l).length := rfl
    rw [this, ones_eq]
    simp [FP.one_eq]
  have hi : (⟨k, .fixed 0, some p⟩ : AlgCfg (FP (.binary64 ω))).init (matsOf l f) =
      .ok ((sources l).map (fun _ => FP.fin 1), (claims l).map fun c => FP.fin (B c)) := by
    obtain ⟨g, -, -, rfl | rfl⟩ := hk <;>
      simp only [AlgCfg.init, hb, hones, bind, Except.bind, pure, Except.pure]
  have hex : (⟨k, .fixed 0, some p⟩ : AlgCfg (FP (.binary64 ω))).exec (matsOf l f) fuel st =
      .ok ⟨(sources l).map (fun _ => FP.fin 1), (claims l).map fun c => FP.fin (B c), 0, initLog ⟨k, .fixed 0, some p⟩ _ _ ++ []⟩ :=
    (exec_ok_iff _ _ _ _ _).2 ⟨fun e => hl ((numClaims_zero l f).1 e), _, _, 0, _, _, _, [], hi, hf, .refl _ _ _,
      .inl rfl, finish_other (invests_ne hk) _ _, rfl, rfl⟩
  refine ⟨_, by rw [run_eq, hex], fun s x hx => ?_, fun v x b hb => ?_⟩
  · rw [trust_resultOf] at hx
    split at hx
    · cases hx
      exact ⟨1, rfl, zpow_le_one_of_nonpos₀ (by norm_num) (by norm_num), one_le_zpow₀ (by norm_num) (by norm_num)⟩
    · cases hx
  · rw [belief_resultOf] at hb
    split at hb
    · rename_i hc
      cases hb
      refine ⟨_, rfl, (zpow_le_zpow_right₀ (by norm_num) (by norm_num)).trans (hlow _ hc), (h1 _ hc).2.2.trans ?_⟩
      exact_mod_cast hS
    · cases hb

/-- **C96.** One iteration is always safe, with every prior. -/
theorem C96_one (l : List (S × V × X)) (hl : l ≠ []) (am : Bool) (f : Option (V → X → X → Option (FP (.binary64 ω))))
    (d : Dataset S V X (FP (.binary64 ω))) (h : Dataset.mk' l am f = .ok d)
    (hS : (allSources l).card ≤ 2 ^ 20) (hC : (allClaims l).card ≤ 2 ^ 20)
    (k : Kind (FP (.binary64 ω))) (hk : Invests k) (p : Prior)
    (fuel : Nat) (hf : 1 < fuel) (clock : Nat → FP (.binary64 ω)) (st : IterState (FP (.binary64 ω))) :
    ∃ r, (⟨k, .fixed 1, some p⟩ : AlgCfg (FP (.binary64 ω))).run d fuel clock st = .ok r ∧
      r.iterations = some 1 ∧ Complete l r ∧ Within r (fun y => 0 ≤ y ∧ y ≤ 1) ∧ OneAttained r := by
  have hd := ((mk'_ok_iff l one_ne_zero_fp am f d).1 h).1
  subst hd
  obtain ⟨r, hr, hw⟩ := invest_start l hl f hS hC k hk p fuel (by omega) clock st
  exact (C96_next l am f _ h hS hC k hk (some p) 0 fuel clock st r hr hw fuel hf clock st).2

end
end TD
