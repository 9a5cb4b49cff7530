import Verif.Lemmas.UsumsDouble
import Verif.Props.Unbounded
import Verif.Props.Precision
/-!
# C106: UnboundedSums in double precision ranks correctly what is clearly different
-/

namespace TD
open Spec Double
attribute [-instance] instBEqProd
variable {S V X : Type} [DecidableEq S] [DecidableEq V] [DecidableEq X] {ω : Platform}

/-- No prior belief exceeds the number of sources of the claim. -/
theorem prior_le_sources {l : List (S × V × X)} (p : Prior) {c : V × X} (hc : c ∈ claims l) :
    priorOf l p c ≤ (sourcesOf l c).card := by
  have h1 : (1 : ℝ) ≤ (sourcesOf l c).card := by exact_mod_cast (sourcesOf_nonempty l hc).card_pos
  cases p with
  | fixed => exact le_trans (by norm_num [priorOf, priorFixed]) h1
  | count => exact le_rfl
  | uniform =>
    refine le_trans ?_ h1
    have h0 : (1 : ℝ) ≤ (rivals l c).card := by exact_mod_cast Finset.card_pos.2 ⟨c, self_mem_rivals l hc⟩
    exact (div_le_one (by linarith)).2 h0
  | voted =>
    refine le_trans ?_ h1
    have h0 : (nSources l c) ≤ ∑ d ∈ rivals l c, nSources l d :=
      Finset.single_le_sum (f := fun d => nSources l d) (fun d _ => Nat.cast_nonneg _) (self_mem_rivals l hc)
    have h2 : (1 : ℝ) ≤ nSources l c := h1
    exact (div_le_one (by linarith)).2 h0

/-- The prior beliefs. -/
theorem usums_start (l : List (S × V × X)) (f : Option (V → X → X → Option (FP (.binary64 ω)))) (hl : l ≠ [])
    (hS : (allSources l).card * (allClaims l).card ≤ 2 ^ 53) (p : Prior) {b v : Nat} (hv : v ≤ 53)
    (hb : ∀ c, (sourcesOf l c).card ≤ b) (hbv : b ≤ 2 ^ v) :
    ∃ bl, priorBeliefs (some p) (matsOf l f) = .ok bl ∧
      OkVec ω 53 v 1 (claims l) (fun _ _ => False) (priorOf l p) bl := by
  obtain ⟨e, h⟩ := prior_rnd (ω := ω) l f hl (by rw [length_sources, length_claims]; exact hS) p
  refine ⟨_, e, ?_⟩
  have e53 : (2 : ℝ) ^ (-((53 : Nat) : ℤ)) = 1 / 2 ^ 53 := by rw [zpow_neg, one_div]; norm_num
  have h1 : ∀ c ∈ claims l, ∃ y, (Rounding.binary64 ω).rnd (priorOf l p c) = .fin y ∧ Ok ω 53 v (0 + 1) (priorOf l p c) y := by
    intro c hc
    obtain ⟨h1, h2, -⟩ := h c hc
    refine Ok.rnd ?_ ?_ (Near.refl _) h2 (by norm_num) (by omega)
    · rcases h1 with h1 | h1
      · rw [h1] at h2; exact absurd h2 (lt_irrefl _)
      · exact h1
    · refine (prior_le_sources p hc).trans ?_
      have : (sourcesOf l c).card ≤ 2 ^ v := (hb c).trans hbv
      rw [zpow_natCast]
      exact_mod_cast this
  obtain ⟨B, hB⟩ := choose_on h1
  refine ⟨B, 1, ?_, one_pos, fun c hc => ?_, fun _ _ _ _ h => h.elim⟩
  · apply List.map_congr_left
    intro c hc
    exact (hB c hc).1
  · rw [one_mul]
    exact (hB c hc).2

theorem ofNat_rank {A : Type} [DecidableEq A] {as : List A} (h : as.length ≤ 2 ^ 53) (G : A → ℝ) (a : A) :
    (Arith.ofNat (rank as.toFinset G a) : FP (.binary64 ω)) = FP.fin (rank as.toFinset G a) := by
  refine rep64_nat (ω := ω) (le_trans ?_ h)
  unfold rank
  exact (Finset.card_filter_le _ _).trans (Finset.card_image_le.trans (List.toFinset_card_le _))

theorem twin_sources {l : List (S × V × X)} (x : Scores S V X) (n : Nat) (hn : 1 ≤ n) (s s' : S) (h : claimsOf l s = claimsOf l s') :
    ((usumsStep l)^[n] x).1 s = ((usumsStep l)^[n] x).1 s' := by
  obtain ⟨m, rfl⟩ : ∃ m, n = m + 1 := ⟨n - 1, by omega⟩
  rw [Function.iterate_succ_apply']
  show sumTrust l _ s = sumTrust l _ s'
  unfold sumTrust
  rw [h]

theorem twin_claims {l : List (S × V × X)} (x : Scores S V X) (n : Nat) (hn : 1 ≤ n) (c c' : V × X) (h : sourcesOf l c = sourcesOf l c') :
    ((usumsStep l)^[n] x).2 c = ((usumsStep l)^[n] x).2 c' := by
  obtain ⟨m, rfl⟩ : ∃ m, n = m + 1 := ⟨n - 1, by omega⟩
  rw [Function.iterate_succ_apply']
  show sumBelief l _ c = sumBelief l _ c'
  unfold sumBelief
  rw [h]

theorem lengths_le {l : List (S × V × X)} (hl : l ≠ []) (hS : (allSources l).card * (allClaims l).card ≤ 2 ^ 53) :
    (sources l).length ≤ 2 ^ 53 ∧ (claims l).length ≤ 2 ^ 53 := by
  rw [length_sources, length_claims]
  have h1 : 1 ≤ (allSources l).card := (allSources_nonempty hl).card_pos
  have h2 : 1 ≤ (allClaims l).card := (allClaims_nonempty hl).card_pos
  exact ⟨le_trans (Nat.le_mul_of_pos_right _ h2) hS, le_trans (Nat.le_mul_of_pos_left _ h1) hS⟩

/-- **C106.** UnboundedSums in double precision: if, after the `k` iterations a run took, the exact unnormalised score of a source
(claim) is clearly less than that of another, by more than the fraction `(k * (a + b + 1) + 1) / 2 ^ 52`, then the reported rank
of the first is less than that of the second.  No source has more than `a ≤ 2 ^ u` claims and no claim more than `b ≤ 2 ^ v`
sources; the bounds on `k` rule out overflow and underflow. -/
theorem C106_order (l : List (S × V × X)) (am : Bool) (f : Option (V → X → X → Option (FP (.binary64 ω))))
    (d : Dataset S V X (FP (.binary64 ω))) (h : Dataset.mk' l am f = .ok d)
    (hS : (allSources l).card * (allClaims l).card ≤ 2 ^ 53) {a b u v : Nat} (ha : ∀ s, (claimsOf l s).card ≤ a) (hau : a ≤ 2 ^ u)
    (hb : ∀ c, (sourcesOf l c).card ≤ b) (hbv : b ≤ 2 ^ v) (hu : u ≤ 53) (hv : v ≤ 53)
    (th : Int) (p : Prior) (fuel : Nat) (clock : Nat → FP (.binary64 ω)) (st : IterState (FP (.binary64 ω)))
    (r : Result S V X (FP (.binary64 ω)))
    (hr : (⟨.unboundedSums, .ord th, some p⟩ : AlgCfg (FP (.binary64 ω))).run d fuel clock st = .ok r)
    (k : Nat) (hk : r.iterations = some k) (hk1 : 1 ≤ k) (hk2 : k ≤ 96) (hk3 : v + k * (u + v) ≤ 970) :
    (∀ s ∈ allSources l, ∀ s' ∈ allSources l,
      ClearlyLess (k * (a + b + 1) + 1) ((usums l (priorOf l p) k).1 s) ((usums l (priorOf l p) k).1 s') →
      ∃ i j : Nat, r.trust.get? s = some (FP.fin i) ∧ r.trust.get? s' = some (FP.fin j) ∧ i < j) ∧
    (∀ c ∈ allClaims l, ∀ c' ∈ allClaims l,
      ClearlyLess (k * (a + b + 1) + 1) ((usums l (priorOf l p) k).2 c) ((usums l (priorOf l p) k).2 c') →
      ∃ i j : Nat, (r.belief.get? c.1).bind (fun d => d.get? c.2) = some (FP.fin i) ∧
        (r.belief.get? c'.1).bind (fun d => d.get? c'.2) = some (FP.fin j) ∧ i < j) := by
  obtain rfl := ((mk'_ok_iff l one_ne_zero_fp am f d).1 h).1
  rw [run_eq] at hr
  cases he : (⟨.unboundedSums, .ord th, some p⟩ : AlgCfg (FP (.binary64 ω))).exec (matsOf l f) fuel st with
  | error e => rw [he] at hr; cases hr
  | ok out =>
    rw [he] at hr
    cases hr
    obtain ⟨h0, t0, b0, n, st', t, bl, L, hi, -, hs, -, hf, hit, -⟩ := (exec_ok_iff _ _ _ _ _).1 he
    have hl : l ≠ [] := fun e => h0 ((numClaims_zero l f).2 e)
    obtain rfl : out.iterations = k := Option.some.inj hk
    rw [hit] at hk1 hk2 hk3 ⊢
    obtain ⟨b1, e1, hin⟩ := usums_start (ω := ω) l f hl hS p hv hb hbv
    simp only [AlgCfg.init, e1] at hi
    cases hi
    obtain ⟨hT, hB⟩ := usums_steps_out l f hs hl hin (x := ((fun _ => 0), priorOf l p)) hu hv ha hau hb hbv (by omega) hk3 hk1
    obtain ⟨G, g1, g2⟩ := hT.ranks_lt
    obtain ⟨H, i1, i2⟩ := hB.ranks_lt
    obtain ⟨l1, l2⟩ := lengths_le hl hS
    simp only [AlgCfg.finish, g1, i1, bind, Except.bind, pure, Except.pure, Except.ok.injEq, Prod.mk.injEq, List.map_map] at hf
    rw [← hf.1, ← hf.2]
    rw [show n * (a + b + 1) + 1 = 1 + n * (a + b + 1) by ring]
    constructor
    · intro s hs s' hs' hlt
      rw [mem_allSources] at hs hs'
      refine ⟨_, _, ?_, ?_, g2 s hs s' hs' hlt⟩
      · rw [trust_resultOf, if_pos hs, Function.comp_apply, ofNat_rank l1]
      · rw [trust_resultOf, if_pos hs', Function.comp_apply, ofNat_rank l1]
    · intro c hc c' hc' hlt
      rw [mem_allClaims] at hc hc'
      refine ⟨_, _, ?_, ?_, i2 c hc c' hc' hlt⟩
      · rw [belief_resultOf, if_pos hc, Function.comp_apply, ofNat_rank l2]
      · rw [belief_resultOf, if_pos hc', Function.comp_apply, ofNat_rank l2]

/-- The iterator of a run with rounding is in the state of the exact run. -/
theorem usums_same_steps {l : List (S × V × X)} (f : Option (V → X → X → Option (FP (.binary64 ω)))) (hl : l ≠ [])
    {a b u v : Nat} (ha : ∀ s, (claimsOf l s).card ≤ a) (hau : a ≤ 2 ^ u)
    (hb : ∀ c, (sourcesOf l c).card ≤ b) (hbv : b ≤ 2 ^ v) (hu : u ≤ 53) (hv : v ≤ 53) (th : Int) (p : Prior)
    {b0 : Vec (FP (.binary64 ω))} (hin : OkVec ω 53 v 1 (claims l) (fun _ _ => False) (priorOf l p) b0) {k : Nat}
    (hk2 : k ≤ 96) (hk3 : v + k * (u + v) ≤ 970)
    (hbef : ∀ j < k, ¬ Settled l (priorOf l p) th j)
    (hap : ∀ j, 1 ≤ j → j ≤ k → SourcesApart l (j * (a + b + 1) + 1) (usums l (priorOf l p) j).1) (n : Nat) (hn : n ≤ k) :
    ∃ t bl L, Steps (.ord th) (usumsBody (matsOf l f)) {} (zeros (matsOf l f).numSources) b0 n
        ⟨n, none, kept l (priorOf l p) n⟩ t bl L ∧
      rankingVector t = .ok ((sources l).map (rank (allSources l) (usums l (priorOf l p) n).1)) := by
  have hrank : ∀ {j p' q' t}, 1 ≤ j → j ≤ k →
      OkVec ω p' q' (j * (a + b + 1) + 1) (sources l) (twS l) (usums l (priorOf l p) j).1 t →
      rankingVector t = .ok ((sources l).map (rank (allSources l) (usums l (priorOf l p) j).1)) := by
    intro j p' q' t h1 h2 ok
    rw [ok.ranks_eq (fun s _ s' _ ht => twin_sources _ j h1 s s' ht)
      (fun s hs s' hs' => hap j h1 h2 s ((mem_allSources l).2 hs) s' ((mem_allSources l).2 hs')), sources_toFinset]
  induction n with
  | zero =>
    refine ⟨_, _, _, .refl _ _ _, ?_⟩
    have e : (zeros (matsOf l f).numSources : Vec (FP (.binary64 ω))) = (sources l).map fun _ => FP.fin 0 := by
      show List.replicate (sources l).length _ = _
      rw [List.map_const', FP.zero_eq]
    rw [e, rankingVector_fp, sources_toFinset]
    rfl
  | succ n ih =>
    obtain ⟨t, bl, L, hs, hr⟩ := ih (by omega)
    have hfin : (IterCfg.ord th : IterCfg (FP (.binary64 ω))).finished ⟨n, none, kept l (priorOf l p) n⟩ = .ok false := by
      simp only [IterCfg.finished, Except.ok.injEq, decide_eq_false_iff_not, kept_iff]
      exact hbef n (by omega)
    have hn3 : n * (u + v) + (u + v) ≤ k * (u + v) := by
      rw [← Nat.succ_mul]
      exact Nat.mul_le_mul_right _ hn
    have hin' : ∃ tw, OkVec ω (53 + 10 * n) (v + n * (u + v)) (1 + n * (a + b + 1)) (claims l) tw
        (usums l (priorOf l p) n).2 bl := by
      cases n with
      | zero =>
        cases hs
        exact ⟨_, by simpa [usums] using hin⟩
      | succ n =>
        exact ⟨_, (usums_steps_out l f hs hl hin (x := ((fun _ => 0), priorOf l p)) hu hv ha hau hb hbv (by omega) (by omega) (by omega)).2⟩
    obtain ⟨tw, hin'⟩ := hin'
    obtain ⟨s, hbd, hc1, hc2, h1, h2⟩ := usums_out l f t hl hin' (by omega) hu hv (by omega) ha hau hb hbv
    have e : usumsStep l (usums l (priorOf l p) n) = usums l (priorOf l p) (n + 1) := by
      unfold usums; rw [Function.iterate_succ_apply']
    rw [e, show 1 + n * (a + b + 1) + (a + b + 1) = (n + 1) * (a + b + 1) + 1 by ring] at hc2 h1
    have r2 := hrank (by omega) hn hc2
    have r3 := hrank (by omega) hn h1
    have hcmp : (IterCfg.ord th : IterCfg (FP (.binary64 ω))).compare ⟨n, none, kept l (priorOf l p) n⟩ s.cmp1 s.cmp2 =
        .ok ⟨n + 1, none, kept l (priorOf l p) (n + 1)⟩ := by
      have := ranks_eq_iff (sources l) (usums l (priorOf l p) n).1 (usums l (priorOf l p) (n + 1)).1
      rw [sources_toFinset] at this
      simp only [IterCfg.compare, hc1, hr, r2, bind, Except.bind, pure, Except.pure, kept]
      by_cases hs : SameOrder (allSources l) (usums l (priorOf l p) n).1 (usums l (priorOf l p) (n + 1)).1
      · rw [if_pos (this.2 hs), if_pos hs]
      · rw [if_neg (fun e => hs (this.1 e)), if_neg hs]
    exact ⟨_, _, _, hs.append (.cons hfin hbd hcmp (.refl _ _ _)), r3⟩

/-- **C106.** If in every iteration up to the last one of the exact run any two sources have clearly different exact scores (or make
the same claims), and in the last one also any two claims (or are made by the same sources), then UnboundedSums in double precision
returns, after the same number of iterations, exactly the ranks of the exact run. -/
theorem C106_same (l : List (S × V × X)) (am : Bool) (f : Option (V → X → X → Option (FP (.binary64 ω))))
    (d : Dataset S V X (FP (.binary64 ω))) (h : Dataset.mk' l am f = .ok d)
    (f' : Option (V → X → X → Option Ex)) (d' : Dataset S V X Ex) (h' : Dataset.mk' l am f' = .ok d') (hl : l ≠ [])
    (hS : (allSources l).card * (allClaims l).card ≤ 2 ^ 53) {a b u v : Nat} (ha : ∀ s, (claimsOf l s).card ≤ a) (hau : a ≤ 2 ^ u)
    (hb : ∀ c, (sourcesOf l c).card ≤ b) (hbv : b ≤ 2 ^ v) (hu : u ≤ 53) (hv : v ≤ 53)
    (th : Int) (p : Prior) (fuel' : Nat) (clock' : Nat → Ex) (st' : IterState Ex) (r' : Result S V X Ex)
    (hr' : (⟨.unboundedSums, .ord th, some p⟩ : AlgCfg Ex).run d' fuel' clock' st' = .ok r')
    (k : Nat) (hk : r'.iterations = some k) (hk1 : 1 ≤ k) (hk2 : k ≤ 96) (hk3 : v + k * (u + v) ≤ 970)
    (hap : ∀ j, 1 ≤ j → j ≤ k → SourcesApart l (j * (a + b + 1) + 1) (usums l (priorOf l p) j).1)
    (hapc : ClaimsApart l (k * (a + b + 1) + 1) (usums l (priorOf l p) k).2)
    (fuel : Nat) (hfuel : k < fuel) (clock : Nat → FP (.binary64 ω)) (st : IterState (FP (.binary64 ω))) :
    ∃ r, (⟨.unboundedSums, .ord th, some p⟩ : AlgCfg (FP (.binary64 ω))).run d fuel clock st = .ok r ∧
      r.iterations = r'.iterations ∧ CloseRuns r r' 0 := by
  obtain ⟨k', hk', hrep, hset, hbef⟩ := C37_unbounded_sums l am f' d' h' hl th p fuel' clock' st' r' hr'
  obtain rfl : k = k' := by rw [hk] at hk'; exact Option.some.inj hk'
  obtain rfl := ((mk'_ok_iff l one_ne_zero_fp am f d).1 h).1
  obtain ⟨b1, e1, hin⟩ := usums_start (ω := ω) l f hl hS p hv hb hbv
  obtain ⟨t, bl, L, hs, hrt⟩ := usums_same_steps f hl ha hau hb hbv hu hv th p hin hk2 hk3 hbef hap k le_rfl
  obtain ⟨-, hB⟩ := usums_steps_out l f hs hl hin (x := ((fun _ => 0), priorOf l p)) hu hv ha hau hb hbv (by omega) hk3 hk1
  have hrb : rankingVector bl = .ok ((claims l).map (rank (allClaims l) (usums l (priorOf l p) k).2)) := by
    rw [show 1 + k * (a + b + 1) = k * (a + b + 1) + 1 by ring] at hB
    rw [hB.ranks_eq (fun c _ c' _ ht => twin_claims _ k hk1 c c' ht)
      (fun c hc c' hc' => hapc c ((mem_allClaims l).2 hc) c' ((mem_allClaims l).2 hc')), claims_toFinset]
    rfl
  obtain ⟨l1, l2⟩ := lengths_le hl hS
  have he : (⟨.unboundedSums, .ord th, some p⟩ : AlgCfg (FP (.binary64 ω))).exec (matsOf l f) fuel st =
      .ok ⟨(sources l).map fun s => FP.fin ((ranks l (usums l (priorOf l p) k)).1 s),
        (claims l).map fun c => FP.fin ((ranks l (usums l (priorOf l p) k)).2 c), k,
        initLog ⟨.unboundedSums, .ord th, some p⟩ (zeros (matsOf l f).numSources) b1 ++ L⟩ := by
    refine (exec_ok_iff _ _ _ _ _).2 ⟨fun e => hl ((numClaims_zero l f).1 e), _, b1, k, _, t, bl, L, ?_, hfuel, hs, .inl ?_, ?_, rfl, rfl⟩
    · simp only [AlgCfg.init, e1]; rfl
    · simp only [IterCfg.finished, Except.ok.injEq, decide_eq_true_eq, kept_iff]
      exact hset
    · simp only [AlgCfg.finish, hrt, hrb, bind, Except.bind, pure, Except.pure, List.map_map]
      congr 2
      · apply List.map_congr_left
        intro s _
        rw [Function.comp_apply, ← sources_toFinset, ofNat_rank l1]
        simp only [ranks, sources_toFinset]
      · apply List.map_congr_left
        intro s _
        rw [Function.comp_apply, ← claims_toFinset, ofNat_rank l2]
        simp only [ranks, claims_toFinset]
  rw [run_eq, he]
  refine ⟨_, rfl, hk.symm, fun s => ?_, fun y z => ?_⟩
  · rw [hrep.1 s]
    simp only [trust_resultOf, mem_allSources]
    by_cases hs : s ∈ sources l
    · rw [if_pos hs, if_pos hs]
      exact .inr ⟨_, _, rfl, rfl, by simp⟩
    · rw [if_neg hs, if_neg hs]
      exact .inl ⟨rfl, rfl⟩
  · rw [hrep.2 y z]
    simp only [belief_resultOf, mem_allClaims]
    by_cases hs : (y, z) ∈ claims l
    · rw [if_pos hs, if_pos hs]
      exact .inr ⟨_, _, rfl, rfl, by simp⟩
    · rw [if_neg hs, if_neg hs]
      exact .inl ⟨rfl, rfl⟩

/-! A concrete instance: source 0 makes two claims, source 1 one of them. -/

/-- Three claims. -/
private def pairL : List (Nat × Nat × Nat) := [(0, 0, 0), (0, 1, 0), (1, 1, 0)]

theorem pair_sets : claimsOf pairL 0 = {(0, 0), (1, 0)} ∧ claimsOf pairL 1 = {(1, 0)} ∧ sourcesOf pairL (0, 0) = {0} ∧
    sourcesOf pairL (1, 0) = {0, 1} ∧ allSources pairL = {0, 1} ∧ allClaims pairL = {(0, 0), (1, 0)} := by decide

theorem pair_scores (n : Nat) : ∃ t1 t2 : ℝ, 0 < t2 ∧ 3 / 2 * t2 ≤ t1 ∧ t1 ≤ 2 * t2 ∧
    (usums pairL (priorOf pairL .count) (n + 1)).1 0 = t1 ∧ (usums pairL (priorOf pairL .count) (n + 1)).1 1 = t2 ∧
    (usums pairL (priorOf pairL .count) (n + 1)).2 (0, 0) = t1 ∧ (usums pairL (priorOf pairL .count) (n + 1)).2 (1, 0) = t1 + t2 := by
  obtain ⟨e1, e2, e3, e4, -, -⟩ := pair_sets
  have st : ∀ x : Scores Nat Nat Nat, (usumsStep pairL x).1 0 = x.2 (0, 0) + x.2 (1, 0) ∧ (usumsStep pairL x).1 1 = x.2 (1, 0) ∧
      (usumsStep pairL x).2 (0, 0) = (usumsStep pairL x).1 0 ∧
      (usumsStep pairL x).2 (1, 0) = (usumsStep pairL x).1 0 + (usumsStep pairL x).1 1 := by
    intro x
    simp [usumsStep, sumTrust, sumBelief, e1, e2, e3, e4]
  induction n with
  | zero =>
    obtain ⟨h1, h2, h3, h4⟩ := st ((fun _ => 0), priorOf pairL .count)
    dsimp only at h1 h2
    have p1 : priorOf pairL .count (0, 0) = 1 := by
      show ((sourcesOf pairL (0, 0)).card : ℝ) = 1
      rw [e3]; simp
    have p2 : priorOf pairL .count (1, 0) = 2 := by
      show ((sourcesOf pairL (1, 0)).card : ℝ) = 2
      rw [e4]; simp
    refine ⟨3, 2, by norm_num, by norm_num, by norm_num, ?_, ?_, ?_, ?_⟩
    · show (usumsStep pairL _).1 0 = 3
      rw [h1, p1, p2]; norm_num
    · show (usumsStep pairL _).1 1 = 2
      rw [h2, p2]
    · show (usumsStep pairL _).2 (0, 0) = 3
      rw [h3, h1, p1, p2]; norm_num
    · show (usumsStep pairL _).2 (1, 0) = 3 + 2
      rw [h4, h1, h2, p1, p2]; norm_num
  | succ n ih =>
    obtain ⟨t1, t2, h0, h1, h2, h3, h4, h5, h6⟩ := ih
    have e : usums pairL (priorOf pairL .count) (n + 1 + 1) = usumsStep pairL (usums pairL (priorOf pairL .count) (n + 1)) := by
      unfold usums; rw [Function.iterate_succ_apply']
    obtain ⟨g1, g2, g3, g4⟩ := st (usums pairL (priorOf pairL .count) (n + 1))
    rw [← e] at g1 g2 g3 g4
    rw [h5, h6] at g1
    rw [h6] at g2
    exact ⟨t1 + (t1 + t2), t1 + t2, by linarith, by linarith, by linarith, g1, g2, by rw [g3, g1], by rw [g4, g1, g2]⟩

theorem pair_apart {j K : Nat} (hj : 1 ≤ j) (hK : K ≤ 2 ^ 50) :
    SourcesApart pairL K (usums pairL (priorOf pairL .count) j).1 ∧ ClaimsApart pairL K (usums pairL (priorOf pairL .count) j).2 := by
  obtain ⟨n, rfl⟩ : ∃ n, j = n + 1 := ⟨j - 1, by omega⟩
  obtain ⟨t1, t2, h0, h1, h2, h3, h4, h5, h6⟩ := pair_scores n
  obtain ⟨-, -, -, -, e5, e6⟩ := pair_sets
  have hk : (3 : ℝ) / 4 ≤ 1 - K / 2 ^ 52 := by
    have : (K : ℝ) ≤ 2 ^ 50 := by exact_mod_cast hK
    have : (K : ℝ) / 2 ^ 52 ≤ 2 ^ 50 / 2 ^ 52 := div_le_div_of_nonneg_right this (by positivity)
    norm_num at this ⊢
    linarith
  have c1 : ClearlyLess K t2 t1 := by
    have := mul_le_mul_of_nonneg_left hk (by linarith : 0 ≤ t1)
    unfold ClearlyLess; linarith
  have c2 : ClearlyLess K t1 (t1 + t2) := by
    have := mul_le_mul_of_nonneg_left hk (by linarith : 0 ≤ t1 + t2)
    unfold ClearlyLess; linarith
  constructor
  · intro s hs s' hs'
    rw [e5] at hs hs'
    simp only [Finset.mem_insert, Finset.mem_singleton] at hs hs'
    rcases hs with rfl | rfl <;> rcases hs' with rfl | rfl
    · exact .inl rfl
    · exact .inr (.inr (by rw [h3, h4]; exact c1))
    · exact .inr (.inl (by rw [h3, h4]; exact c1))
    · exact .inl rfl
  · intro s hs s' hs'
    rw [e6] at hs hs'
    simp only [Finset.mem_insert, Finset.mem_singleton] at hs hs'
    rcases hs with rfl | rfl <;> rcases hs' with rfl | rfl
    · exact .inl rfl
    · exact .inr (.inl (by rw [h5, h6]; exact c2))
    · exact .inr (.inr (by rw [h5, h6]; exact c2))
    · exact .inl rfl

/-- The hypotheses hold, with the default settings: in both arithmetics the run returns the same ranks. -/
example (clock : Nat → FP (.binary64 ω)) (clock' : Nat → Ex) : ∃ d : Dataset Nat Nat Nat (FP (.binary64 ω)), ∃ d' : Dataset Nat Nat Nat Ex,
    Dataset.mk' pairL false none = .ok d ∧ Dataset.mk' pairL false none = .ok d' ∧ ∃ r r',
      (⟨.unboundedSums, .ord 20, some .count⟩ : AlgCfg (FP (.binary64 ω))).run d 30 clock {} = .ok r ∧
      (⟨.unboundedSums, .ord 20, some .count⟩ : AlgCfg Ex).run d' 30 clock' {} = .ok r' ∧
      r.iterations = r'.iterations ∧ CloseRuns r r' 0 := by
  obtain ⟨e1, e2, e3, e4, e5, e6⟩ := pair_sets
  have hnr : NoRepeats pairL := by decide
  have hl : pairL ≠ [] := by decide
  obtain ⟨d', hd'⟩ := exists_dataset pairL hnr
  have hd : Dataset.mk' pairL false none = .ok (datasetOf (α := FP (.binary64 ω)) pairL none) :=
    (mk'_ok_iff pairL one_ne_zero_fp false none _).2 ⟨rfl, .inr hnr, by simp [optImpBad]⟩
  have hset : Settled pairL (priorOf pairL .count) 20 21 := by
    refine ⟨by norm_num, fun i hi h1 => ?_⟩
    obtain ⟨n, rfl⟩ : ∃ n, i = n + 1 := ⟨i - 1, by push_cast at h1; omega⟩
    obtain ⟨t1, t2, h0, h1, h2, h3, h4, -, -⟩ := pair_scores n
    obtain ⟨u1, u2, k0, k1, k2, k3, k4, -, -⟩ := pair_scores (n + 1)
    intro s hs s' hs'
    rw [e5] at hs hs'
    simp only [Finset.mem_insert, Finset.mem_singleton] at hs hs'
    rcases hs with rfl | rfl <;> rcases hs' with rfl | rfl
    · simp
    · rw [h3, h4, k3, k4]
      exact ⟨fun h => by linarith, fun h => by linarith⟩
    · rw [h3, h4, k3, k4]
      exact ⟨fun h => by linarith, fun h => by linarith⟩
    · simp
  obtain ⟨r', hr'⟩ := C37_returns pairL false none d' hd' hl 20 .count 21 hset 30 (by norm_num) clock' {}
  obtain ⟨k, hk, -, hs, hbef⟩ := C37_unbounded_sums pairL false none d' hd' hl 20 .count 30 clock' {} r' hr'
  have hk1 : 20 ≤ k := by have := hs.1; omega
  have hk2 : k ≤ 21 := by
    by_contra hc
    exact hbef 21 (by omega) hset
  have hK : ∀ j ≤ k, j * (2 + 2 + 1) + 1 ≤ 2 ^ 50 := fun j hj => by omega
  obtain ⟨r, hr, hit, hcl⟩ := C106_same (ω := ω) pairL false none _ hd none d' hd' hl (by rw [e5, e6]; decide) (a := 2) (b := 2)
    (u := 1) (v := 1)
    (fun s => by
      by_cases h : s ∈ allSources pairL
      · rw [e5] at h
        simp only [Finset.mem_insert, Finset.mem_singleton] at h
        rcases h with rfl | rfl
        · rw [e1]; decide
        · rw [e2]; decide
      · have : claimsOf pairL s = ∅ := by
          by_contra hne
          obtain ⟨c, hc⟩ := Finset.nonempty_iff_ne_empty.2 hne
          exact h ((mem_allSources _).2 (mem_sources_of_sourcesOf _ ((mem_sourcesOf _).2 ((mem_claimsOf _).1 hc))))
        rw [this]; simp)
    (by norm_num)
    (fun c => by
      by_cases h : c ∈ allClaims pairL
      · rw [e6] at h
        simp only [Finset.mem_insert, Finset.mem_singleton] at h
        rcases h with rfl | rfl
        · rw [e3]; decide
        · rw [e4]; decide
      · have : sourcesOf pairL c = ∅ := by
          by_contra hne
          obtain ⟨s, hs⟩ := Finset.nonempty_iff_ne_empty.2 hne
          exact h ((mem_allClaims _).2 (mem_claims_of_claimsOf _ ((mem_claimsOf _).2 ((mem_sourcesOf _).1 hs))))
        rw [this]; simp)
    (by norm_num) (by norm_num) (by norm_num) 20 .count 30 clock' {} r' hr' k hk (by omega) (by omega) (by omega)
    (fun j h1 h2 => (pair_apart h1 (hK j h2)).1) (pair_apart (by omega) (hK k le_rfl)).2 30 (by omega) clock {}
  exact ⟨_, d', hd, hd', r, r', hr, hr', hit, hcl⟩

end TD
