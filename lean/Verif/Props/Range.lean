import Verif.Lemmas.Range
import Verif.Props.Rounded
import Verif.Props.Stopping
/-!
# Ranges of scores, and exceptions, for every rounding (C76)

Nothing is assumed about the size of the dataset, the precision of the numbers or the
parameters: `R` is any monotone rounding, `f` any implication function.
-/

namespace TD
open Spec
attribute [-instance] instBEqProd

section
variable {S V X : Type} [DecidableEq S] [DecidableEq V] [DecidableEq X] {R : Rounding}

theorem scoresAre_resultOf {l : List (S × V × X)} {t b : Vec (FP R)} {P Q : FNum → Prop} {P' Q' : FP R → Prop}
    (hP : ∀ x : FP R, P' x ↔ P x) (hQ : ∀ x : FP R, Q' x ↔ Q x)
    (ht : All P t) (hb : All Q b) (time : FP R) (it : Option Nat) : ScoresAre (resultOf l t b time it) P' Q' := by
  refine ⟨fun s x h => ?_, fun v x y h => ?_⟩
  · have hm : (s, x) ∈ (sources l).zip t := mem_of_lookup_some h
    exact (hP x).2 (ht x (List.of_mem_zip hm).2)
  · obtain ⟨j, -, hj⟩ := (mem_beliefOf (nodup_claims l)).1 h
    exact (hQ y).2 (hb y (List.mem_of_getElem? hj))

theorem exists_map {A B : Type} [DecidableEq A] [Inhabited B] {as : List A} (h : as.Nodup) {v : List B}
    (hv : v.length = as.length) : ∃ F : A → B, v = as.map F := by
  induction as generalizing v with
  | nil => exact ⟨fun _ => default, by simpa using hv⟩
  | cons a as ih =>
    cases v with
    | nil => simp at hv
    | cons x v =>
      obtain ⟨F, rfl⟩ := ih h.of_cons (by simpa using hv)
      refine ⟨fun b => if b = a then x else F b, ?_⟩
      rw [List.map_cons, if_pos rfl]
      congr 1
      apply List.map_congr_left
      intro b hb
      rw [if_neg]
      rintro rfl
      exact (List.nodup_cons.1 h).1 hb

instance : Inhabited (FP R) := ⟨FP.nan⟩

theorem complete_sized {l : List (S × V × X)} {f : Option (V → X → X → Option (FP R))} {t b : Vec (FP R)}
    (h : Sized (matsOf l f) t b) (time : FP R) (it : Option Nat) : Complete l (resultOf l t b time it) := by
  obtain ⟨F, rfl⟩ := exists_map (nodup_sources l) h.1
  obtain ⟨G, rfl⟩ := exists_map (nodup_claims l) h.2
  exact complete_resultOf l F G time it

theorem Post.range {n : Nat} {k : Kind (FP R)} {l : List (S × V × X)} {t b : Vec (FP R)} (h : Post n k t b) (time : FP R)
    (it : Option Nat) : RangeOf n k (resultOf l t b time it) := by
  cases k with
  | truthFinder rho gamma t0 => exact scoresAre_resultOf nn_iff un_iff h.1 h.2 time it
  | crh eps =>
    intro he
    obtain ⟨h1, h2, h3⟩ := h ((nn_iff eps).1 he)
    exact ⟨scoresAre_resultOf nn_iff nn_iff h1 h2 time it, fun hn => scoresAre_resultOf nn_iff un_iff h1 (h3 hn) time it⟩
  | unboundedSums => exact scoresAre_resultOf nn_iff nn_iff h.1 h.2 time it
  | _ => exact scoresAre_resultOf un_iff un_iff h.1 h.2 time it

theorem finish_post {n : Nat} {c : AlgCfg (FP R)} {t b t' b' : Vec (FP R)} (h : Post n c.kind t b)
    (hf : c.finish t b = .ok (t', b')) : Post n c.kind t' b' := by
  obtain ⟨k, it, pr⟩ := c
  cases k with
  | unboundedSums =>
    cases it with
    | ord th =>
      simp only [AlgCfg.finish, bind, Except.bind, pure, Except.pure] at hf
      split at hf
      · cases hf
      · split at hf
        · cases hf
        · cases hf
          refine ⟨fun x hx => ?_, fun x hx => ?_⟩
          · obtain ⟨n, -, rfl⟩ := List.mem_map.1 hx; exact nn_ofNat n
          · obtain ⟨n, -, rfl⟩ := List.mem_map.1 hx; exact nn_ofNat n
    | _ => cases hf
  | _ => cases hf; exact h

/-- **C76.** However floating point results are rounded: after at least one iteration every
source and every claim has a score, and each score is either NaN or in range: between 0 and 1
for Sums, Average·Log, Investment and PooledInvestment and for the beliefs of TruthFinder (and
of CRH, with a nonnegative constant and if the trust scores are added from left to right), not
negative otherwise. -/
theorem C76_range (l : List (S × V × X)) (am : Bool) (f : Option (V → X → X → Option (FP R)))
    (d : Dataset S V X (FP R)) (h : Dataset.mk' l am f = .ok d) (c : AlgCfg (FP R)) (fuel : Nat)
    (clock : Nat → FP R) (st : IterState (FP R)) (r : Result S V X (FP R))
    (hr : c.run d fuel clock st = .ok r) (k : Nat) (hk : r.iterations = some k) (hk1 : 1 ≤ k) :
    Complete l r ∧ RangeOf (allSources l).card c.kind r := by
  obtain rfl := ((mk'_ok_iff l one_ne_zero_fp am f d).1 h).1
  rw [run_eq] at hr
  cases he : c.exec (matsOf l f) fuel st with
  | error e => rw [he] at hr; cases hr
  | ok out =>
    rw [he] at hr
    cases hr
    refine ⟨complete_sized (exec_sized (matsOf_wf l f) he).1 _ _, ?_⟩
    obtain ⟨h0, t0, b0, n, st', t, b, L, hi, -, hs, -, hf, hit, hlog⟩ := (exec_ok_iff _ _ _ _ _).1 he
    have hn : out.iterations = k := by simpa [resultOf] using hk
    rw [← length_sources l]
    exact (finish_post ((steps_range hs (init_pre hi)).1 (by omega)) hf).range _ _

/-- **C76** for the partial results of `run_iter` that belong to an iteration. -/
theorem C76_range_iter (l : List (S × V × X)) (am : Bool) (f : Option (V → X → X → Option (FP R)))
    (d : Dataset S V X (FP R)) (h : Dataset.mk' l am f = .ok d) (c : AlgCfg (FP R)) (fuel : Nat)
    (clock : Nat → FP R) (st : IterState (FP R)) (rs : List (Result S V X (FP R)))
    (hr : c.runIter d fuel clock st = .ok rs) :
    ∀ r ∈ rs, ∀ k, r.iterations = some k → 1 ≤ k → Complete l r ∧ RangeOf (allSources l).card c.kind r := by
  obtain rfl := ((mk'_ok_iff l one_ne_zero_fp am f d).1 h).1
  rw [runIter_eq] at hr
  cases he : c.exec (matsOf l f) fuel st with
  | error e => rw [he] at hr; cases hr
  | ok out =>
    rw [he] at hr
    cases hr
    intro r hr k hk hk1
    obtain ⟨p, hp, rfl⟩ := List.mem_map.1 hr
    have hp' : p.2 ∈ out.log := by
      have := List.mem_map_of_mem (f := Prod.snd) hp
      rwa [enum_map_snd] at this
    refine ⟨complete_sized ((exec_sized (matsOf_wf l f) he).2 _ hp') _ _, ?_⟩
    obtain ⟨h0, t0, b0, n, st', t, b, L, hi, -, hs, -, hf, hit, hlog⟩ := (exec_ok_iff _ _ _ _ _).1 he
    have hk' : p.2.iterations = k := by simpa [resultOf] using hk
    rw [hlog, List.mem_append] at hp'
    rcases hp' with hp' | hp'
    · unfold initLog at hp'
      split at hp'
      · simp only [List.mem_singleton] at hp'
        rw [hp'] at hk'
        simp only at hk'
        omega
      · cases hp'
    · rw [← length_sources l]
      exact ((steps_range hs (init_pre hi)).2 _ hp').range _ _

theorem npMax_nn {v : Vec (FP R)} (h : All NN v) {m : FP R} (hm : npMax v = .ok m) :
    NN m ∧ ∀ x ∈ v, Le x m := by
  have nanb : ∀ x : FP R, isNan x = true ↔ x = FNum.nan := by
    have key : ∀ x : FNum, (!(FNum.eq x x)) = true ↔ x = .nan := by
      intro x
      cases x <;> simp [FNum.eq]
    exact key
  have ltb : ∀ a b : FNum, FNum.lt a b = true → a.toEReal < b.toEReal := by
    intro a b h
    cases a <;> cases b <;> simp_all [FNum.lt]
  have geb : ∀ a b : FNum, FNum.lt a b ≠ true → a ≠ .nan → b ≠ .nan → b.toEReal ≤ a.toEReal := by
    intro a b h
    cases a <;> cases b <;> simp_all [FNum.lt]
  have key : ∀ (xs : List (FP R)) (a : FP R), NN a → (∀ x ∈ xs, NN x) → ∀ m : FP R,
      xs.foldl (fun m y => if isNan m then m else if isNan y then y else if Arith.lt m y then y else m) a = m →
      NN m ∧ Le a m ∧ (a = FNum.nan → m = FNum.nan) ∧ ∀ x ∈ xs, Le x m := by
    intro xs
    induction xs with
    | nil => rintro a ha _ m rfl; exact ⟨ha, Le.refl _, fun h => h, by simp⟩
    | cons y xs ih =>
      intro a ha hxs m hm
      rw [List.foldl_cons] at hm
      have hy := hxs y (by simp)
      have ih' := fun a ha hm => ih a ha (fun x hx => hxs x (by simp [hx])) m hm
      split at hm
      · rename_i hn
        obtain ⟨h1, h2, h3, h4⟩ := ih' a ha hm
        obtain rfl := h3 ((nanb a).1 hn)
        exact ⟨h1, h2, fun _ => rfl, fun x _ => .inr (.inl rfl)⟩
      · rename_i hn
        rw [nanb] at hn
        split at hm
        · rename_i hy'
          obtain ⟨h1, h2, h3, h4⟩ := ih' y hy hm
          obtain rfl := h3 ((nanb y).1 hy')
          exact ⟨h1, .inr (.inl rfl), fun _ => rfl, fun x _ => .inr (.inl rfl)⟩
        · rename_i hy'
          rw [nanb] at hy'
          have trans : ∀ a b c : FNum, b ≠ .nan → a.toEReal ≤ b.toEReal → Le b c → Le a c := by
            rintro a b c hb hab (h | h | h)
            · exact absurd h hb
            · exact .inr (.inl h)
            · exact .inr (.inr (hab.trans h))
          split at hm
          · rename_i hlt
            obtain ⟨h1, h2, h3, h4⟩ := ih' y hy hm
            refine ⟨h1, trans _ _ _ hy' (ltb _ _ hlt).le h2, fun h => absurd h hn, ?_⟩
            intro x hx
            rcases List.mem_cons.1 hx with rfl | hx
            · exact h2
            · exact h4 x hx
          · rename_i hlt
            obtain ⟨h1, h2, h3, h4⟩ := ih' a ha hm
            refine ⟨h1, h2, h3, ?_⟩
            intro x hx
            rcases List.mem_cons.1 hx with rfl | hx
            · exact trans _ _ _ hn (geb _ _ hlt hn hy') h2
            · exact h4 x hx
  cases v with
  | nil => cases hm
  | cons a as =>
    simp only [npMax, Except.ok.injEq] at hm
    obtain ⟨h1, h2, -, h4⟩ := key as a (h a (by simp)) (fun x hx => h x (by simp [hx])) m hm
    refine ⟨h1, fun x hx => ?_⟩
    rcases List.mem_cons.1 hx with rfl | hx
    · exact h2
    · exact h4 x hx

/-- **C76** for majority voting: beliefs are NaN or in `[0, 1]`, all trust scores are 1. -/
theorem C76_voting (l : List (S × V × X)) (am : Bool) (f : Option (V → X → X → Option (FP R)))
    (d : Dataset S V X (FP R)) (h : Dataset.mk' l am f = .ok d) (clock : Nat → FP R)
    (r : Result S V X (FP R)) (hr : votingRun d clock = .ok r) :
    Complete l r ∧ ScoresAre r (· = FP.fin 1) UnitOrNan := by
  obtain rfl := ((mk'_ok_iff l one_ne_zero_fp am f d).1 h).1
  unfold votingRun at hr
  have hm : (datasetOf l f).mats = matsOf l f := rfl
  rw [hm] at hr
  split at hr
  · cases hr
  · dsimp only at hr
    cases hmx : npMax (sourceCounts (matsOf l f)) with
    | error e => rw [hmx] at hr; cases hr
    | ok mx =>
      rw [hmx] at hr
      obtain ⟨h1, h2⟩ := npMax_nn (sourceCounts_nn l f) hmx
      have hs : Sized (matsOf l f) (ones (matsOf l f).numSources : Vec (FP R))
          ((sourceCounts (matsOf l f)).map (· /. mx)) := by
        refine ⟨by simp [ones], ?_⟩
        rw [List.length_map]
        exact (length_mulVec _ _).trans ((length_T _).trans (matsOf_wf l f).scT)
      obtain ⟨g1, g2⟩ := labels_ok l f hs
      simp only [bind, Except.bind, pure, Except.pure, g1, g2, Except.ok.injEq] at hr
      obtain rfl : r = resultOf l _ _ _ none := hr.symm
      refine ⟨complete_sized hs _ _, ?_⟩
      refine scoresAre_resultOf (P := (· = .fin 1)) (fun _ => Iff.rfl) un_iff ?_ ?_ _ _
      · refine all_replicate ?_ _
        exact FP.one_eq
      · intro y hy
        obtain ⟨x, hx, rfl⟩ := List.mem_map.1 hy
        exact un_div' (sourceCounts_nn l f x hx) h1 (h2 x hx)

end

/-! ### Exceptions, for every arithmetic -/

section
variable {S V X α : Type} [DecidableEq S] [DecidableEq V] [DecidableEq X] [Arith α]

theorem normalise_ne {v : Vec α} (h : v ≠ []) : ∃ w, normalise v = .ok w := by
  cases v with
  | nil => exact absurd rfl h
  | cons x xs => exact ⟨_, rfl⟩

theorem normalise2_total {v w : Vec α} {g : Vec α → Vec α → Step α} (hv : v ≠ []) (hw : w ≠ []) :
    ∃ s, (do let a ← normalise v; let b ← normalise w; return some (g a b) :
      Except PyErr (Option (Step α))) = .ok s := by
  obtain ⟨a, ha⟩ := normalise_ne hv
  obtain ⟨b, hb⟩ := normalise_ne hw
  rw [ha]
  simp only [bind, Except.bind, hb]
  exact ⟨_, rfl⟩

theorem npMax_ne {v : Vec α} (h : v ≠ []) : ∃ m, npMax v = .ok m := by
  cases v with
  | nil => exact absurd rfl h
  | cons x xs => exact ⟨_, rfl⟩

omit [Arith α] in
theorem ne_nil_of_length {v : Vec α} {n : Nat} (h : v.length = n) (hn : n ≠ 0) : v ≠ [] := by
  rintro rfl; exact hn h.symm

/-- Loop bodies do not raise. -/
theorem body_total {k : Kind α} {m : Mats α} (hm : m.WF) (hS : m.numSources ≠ 0) (hC : m.numClaims ≠ 0)
    {t b : Vec α} (ht : Sized m t b) : ∃ s, k.body m t b = .ok s := by
  have l1 : ∀ x : Vec α, (m.sc.mulVec x).length = m.numSources := fun x => (length_mulVec _ _).trans hm.sc
  have l2 : ∀ x : Vec α, (m.sc.T.mulVec x).length = m.numClaims :=
    fun x => (length_mulVec _ _).trans ((length_T _).trans hm.scT)
  have lc : (claimCounts m).length = m.numSources := l1 _
  cases k with
  | sums =>
    exact normalise2_total (g := fun a b => ⟨t, a, a, b⟩) (ne_nil_of_length (l1 _) hS) (ne_nil_of_length (l2 _) hC)
  | averageLog =>
    refine normalise2_total (g := fun a b => ⟨a, t, a, b⟩) (ne_nil_of_length (n := m.numSources) ?_ hS)
      (ne_nil_of_length (l2 _) hC)
    simp [vzip, avlogWeights, l1, lc]
  | investment g =>
    simp only [Kind.body, investBody]
    cases hu : updateTrust m t b with
    | none => exact ⟨_, rfl⟩
    | some nt =>
      refine normalise2_total (g := fun a b => ⟨a, t, a, b⟩) (ne_nil_of_length (updateTrust_length hm ht.1 hu) hS)
        (ne_nil_of_length (n := m.numClaims) ?_ hC)
      simp [l2]
  | pooledInvestment g =>
    simp only [Kind.body, pooledBody]
    cases hu : updateTrust m t b with
    | none => exact ⟨_, rfl⟩
    | some nt =>
      refine normalise2_total (g := fun a b => ⟨a, t, a, b⟩) (ne_nil_of_length (updateTrust_length hm ht.1 hu) hS)
        (ne_nil_of_length (n := m.numClaims) ?_ hC)
      simp [vzip, l2, length_mulVec, hm.mutEx]
  | truthFinder rho gamma t0 =>
    simp only [Kind.body, tfBody]
    cases logTrust t <;> exact ⟨_, rfl⟩
  | crh eps => exact ⟨_, rfl⟩
  | unboundedSums =>
    obtain ⟨m1, h1⟩ := npMax_ne (ne_nil_of_length (l1 b) hS)
    obtain ⟨m2, h2⟩ := npMax_ne (ne_nil_of_length (l2 (m.sc.mulVec b)) hC)
    simp only [Kind.body, usumsBody, rescale, h1, h2, bind, Except.bind, pure, Except.pure]
    exact ⟨_, rfl⟩

/-- What is compared: the trust before and after, or (UnboundedSums) sized vectors. -/
theorem body_cmp {k : Kind α} {m : Mats α} (hm : m.WF) {t b : Vec α} {s : Step α} (ht : Sized m t b)
    (h : k.body m t b = .ok (some s)) : s.cmp1.length = m.numSources ∧ s.cmp2.length = m.numSources := by
  have hs := body_sized hm ht h
  have two : ∀ {v w : Vec α} {g : Vec α → Vec α → Step α},
      (do let a ← normalise v; let b ← normalise w; return some (g a b) :
        Except PyErr (Option (Step α))) = .ok (some s) → ∃ a b, s = g a b := by
    intro v w g h
    simp only [bind, Except.bind, pure, Except.pure] at h
    split at h
    · cases h
    · split at h
      · cases h
      · cases h; exact ⟨_, _, rfl⟩
  cases k with
  | sums =>
    obtain ⟨a, b', rfl⟩ := two (g := fun a b => ⟨t, a, a, b⟩) h
    exact ⟨ht.1, hs.1⟩
  | averageLog =>
    obtain ⟨a, b', rfl⟩ := two (g := fun a b => ⟨a, t, a, b⟩) h
    exact ⟨hs.1, ht.1⟩
  | investment g =>
    simp only [Kind.body, investBody] at h
    cases hu : updateTrust m t b with
    | none => rw [hu] at h; cases h
    | some nt =>
      rw [hu] at h
      obtain ⟨a, b', rfl⟩ := two (g := fun a b => ⟨a, t, a, b⟩) h
      exact ⟨hs.1, ht.1⟩
  | pooledInvestment g =>
    simp only [Kind.body, pooledBody] at h
    cases hu : updateTrust m t b with
    | none => rw [hu] at h; cases h
    | some nt =>
      rw [hu] at h
      obtain ⟨a, b', rfl⟩ := two (g := fun a b => ⟨a, t, a, b⟩) h
      exact ⟨hs.1, ht.1⟩
  | truthFinder rho gamma t0 =>
    simp only [Kind.body, tfBody] at h
    cases hl : logTrust t with
    | none => rw [hl] at h; cases h
    | some tau => rw [hl] at h; cases h; exact ⟨hs.1, ht.1⟩
  | crh eps => cases h; exact ⟨ht.1, hs.1⟩
  | unboundedSums =>
    simp only [Kind.body, usumsBody, bind, Except.bind, pure, Except.pure] at h
    split at h
    · cases h
    · split at h
      · cases h
      · cases h
        exact ⟨ht.1, (length_mulVec _ _).trans hm.sc⟩

theorem compare_total {it : IterCfg α} (ho : ∀ n, it ≠ .ord n) (hm : ∀ th lim, it ≠ .conv none th lim)
    {st : IterState α} {v w : Vec α} {n : Nat} (hv : v.length = n) (hw : w.length = n) (hn : n ≠ 0) :
    ∃ st', it.compare st v w = .ok st' := by
  cases it with
  | fixed k => exact ⟨_, rfl⟩
  | ord n => exact absurd rfl (ho n)
  | conv ms th lim =>
    cases ms with
    | none => exact absurd rfl (hm th lim)
    | some ms =>
      have hd : ∃ x, getDistance (some ms) v w = .ok x := by
        cases ms with
        | l1 => exact ⟨_, rfl⟩
        | l2 => exact ⟨_, rfl⟩
        | lInf =>
          refine npMax_ne (ne_nil_of_length (n := n) ?_ hn)
          simp [vzip, hv, hw]
        | cosine =>
          simp only [getDistance]
          split <;> exact ⟨_, rfl⟩
      obtain ⟨x, hx⟩ := hd
      simp only [IterCfg.compare, hx, bind, Except.bind, pure, Except.pure]
      exact ⟨_, rfl⟩

theorem pow_zero_fp (x : FNum) : FNum.pow R x (.fin 0) = .fin 1 := by
  cases x with
  | fin x =>
    simp only [FNum.pow, FNum.powFin]
    split
    · have h := faithful_rep (R.pow_faithful x 0) (by rw [Real.rpow_zero]; exact rep_one)
      rw [Real.rpow_zero] at h
      exact h
    · rw [if_pos trivial]
  | pinf => simp [FNum.pow]
  | ninf => simp [FNum.pow]
  | nan => simp [FNum.pow]

theorem normalise_ones {v w : Vec (FP R)} (hv : All (· = .fin 1) v) (h : normalise v = .ok w) :
    All (· = .fin 1) w := by
  cases v with
  | nil => cases h
  | cons a as =>
    have key : ∀ (L : List (FP R)) (m : FP R), m = FP.fin 1 → (∀ x ∈ L, x = FP.fin 1) →
        L.foldl (fun m y => if Arith.lt m y then y else m) m = FP.fin 1 := by
      intro L
      induction L with
      | nil => intro m hm _; exact hm
      | cons x L ih =>
        intro m hm hL
        rw [List.foldl_cons]
        refine ih _ ?_ (fun y hy => hL y (by simp [hy]))
        split
        · exact hL x (by simp)
        · exact hm
    simp only [normalise, pyMax, key as a (hv a (by simp)) (fun x hx => hv x (by simp [hx])), bind, Except.bind,
      pure, Except.pure, Except.ok.injEq] at h
    subst h
    refine all_map hv fun x hx => ?_
    have : x = (FP.fin 1 : FP R) := hx
    rw [this]
    show FNum.div R (.fin 1) (.fin 1) = .fin 1
    simp only [FNum.div]
    rw [if_neg one_ne_zero, div_one, R.one]

/-- **C76.** `x ** 0 = 1` even for infinity and NaN: Investment with `g = 0` assigns belief 1 to
every claim, however numbers are rounded. -/
theorem C76_zero_exponent (l : List (S × V × X)) (am : Bool) (f : Option (V → X → X → Option (FP R)))
    (d : Dataset S V X (FP R)) (h : Dataset.mk' l am f = .ok d) (it : IterCfg (FP R)) (p : Option Prior) (fuel : Nat)
    (clock : Nat → FP R) (st : IterState (FP R)) (r : Result S V X (FP R))
    (hr : AlgCfg.run ⟨.investment (FP.fin 0), it, p⟩ d fuel clock st = .ok r) (k : Nat)
    (hk : r.iterations = some k) (hk1 : 1 ≤ k) :
    ScoresAre r UnitOrNan (· = FP.fin 1) := by
  have hrange := (C76_range l am f d h _ fuel clock st r hr k hk hk1).2
  obtain rfl := ((mk'_ok_iff l one_ne_zero_fp am f d).1 h).1
  refine ⟨hrange.1, ?_⟩
  rw [run_eq] at hr
  cases he : AlgCfg.exec ⟨.investment (FP.fin 0), it, p⟩ (matsOf l f) fuel st with
  | error e => rw [he] at hr; cases hr
  | ok out =>
    rw [he] at hr
    cases hr
    obtain ⟨h0, t0, b0, n, st', t, b, L, hi, -, hs, -, hf, hit, hlog⟩ := (exec_ok_iff _ _ _ _ _).1 he
    have hn : out.iterations = k := by simpa [resultOf] using hk
    have hbody : ∀ (t b : Vec (FP R)) (s : Step (FP R)), investBody (FP.fin 0) (matsOf l f) t b = .ok (some s) →
        All (· = .fin 1) s.belief := by
      intro t b s hs
      unfold investBody at hs
      split at hs
      · cases hs
      · simp only [bind, Except.bind, pure, Except.pure] at hs
        split at hs
        · cases hs
        · split at hs
          · cases hs
          · rename_i w hw
            cases hs
            exact normalise_ones (all_map (P := fun _ => True) (fun _ _ => trivial)
              fun x _ => pow_zero_fp (R := R) x) hw
    have key : ∀ {st t b n st' t' b' L}, Steps it (investBody (FP.fin 0) (matsOf l f)) st t b n st' t' b' L →
        1 ≤ n → All (· = .fin 1) b' := by
      intro st t b n st' t' b' L hs
      induction hs with
      | refl => intro h; omega
      | cons _ hb _ hrest ih =>
        intro _
        cases hrest with
        | refl => exact hbody _ _ _ hb
        | cons => exact ih (by omega)
    have hb := key hs (by omega)
    cases hf
    exact (scoresAre_resultOf (P := fun _ => True) (P' := fun _ => True) (fun _ => Iff.rfl)
      (Q' := (· = FP.fin 1)) (fun _ => Iff.rfl) (fun _ _ => trivial) hb _ _).2

/-- **C76.** For every arithmetic: an algorithm object with a valid prior and a
`FixedIterator` or `ConvergenceIterator` with a valid distance measure (and any parameters),
run on a non-empty dataset, raises nothing but `ConvergenceError`, and that only with a
`ConvergenceIterator`.  (UnboundedSums, which needs its own iterator, is C46.  `diverge` is the
model's outcome when the number of loop tests reaches `fuel`: it does not occur when `fuel`
exceeds the limit of the iterator.) -/
theorem C76_exceptions (h10 : Arith.eq (Arith.ofNat 1 : α) (Arith.ofNat 0) = false)
    (l : List (S × V × X)) (hl : l ≠ []) (am : Bool) (f : Option (V → X → X → Option α))
    (d : Dataset S V X α) (h : Dataset.mk' l am f = .ok d) (c : AlgCfg α)
    (hp : c.priors ≠ none) (hk : c.kind ≠ .unboundedSums) (ho : ∀ n, c.iterator ≠ .ord n)
    (hm : ∀ th lim, c.iterator ≠ .conv none th lim) (fuel : Nat) (clock : Nat → α) (st : IterState α) (e : PyErr)
    (hr : c.run d fuel clock st = .error e ∨ c.runIter d fuel clock st = .error e) :
    (e = .convergence ∧ ∃ ms th lim, c.iterator = .conv ms th lim) ∨
    (e = .diverge ∧ (∀ n : Int, c.iterator = .fixed n → (fuel : Int) ≤ max n 0) ∧
      ∀ ms th n, c.iterator = .conv ms th n → (fuel : Int) ≤ max n 0) := by
  obtain rfl := ((mk'_ok_iff l h10 am f d).1 h).1
  have hx : c.exec (matsOf l f) fuel st = .error e := by
    rw [run_eq, runIter_eq] at hr
    rcases hr with h | h <;> split at h <;> first | (cases h; assumption) | cases h
  have hC : (matsOf l f).numClaims ≠ 0 := fun h0 => hl ((numClaims_zero l f).1 h0)
  have hS : (matsOf l f).numSources ≠ 0 := fun h0 => sources_ne hl (List.length_eq_zero_iff.1 h0)
  have hwf := matsOf_wf l f
  rw [exec_eq _ _ _ _ hC] at hx
  obtain ⟨t0, b0, hi⟩ : ∃ t0 b0, c.init (matsOf l f) = .ok (t0, b0) := by
    obtain ⟨k, it, pr⟩ := c
    obtain ⟨p, rfl⟩ := Option.ne_none_iff_exists'.1 hp
    obtain ⟨b, hb⟩ : ∃ b, priorBeliefs (some p) (matsOf l f) = .ok b := by
      cases p <;> exact ⟨_, rfl⟩
    cases k <;> simp only [AlgCfg.init, hb, bind, Except.bind, pure, Except.pure] <;> exact ⟨_, _, rfl⟩
  have h0 := init_sized hwf hi
  rw [hi] at hx
  simp only at hx
  split at hx
  · rename_i e' hlo
    cases hx
    rcases (loop_error_iff _ _ _ _ _ _).1 hlo with ⟨rfl, st', t', b', L, hs⟩ | ⟨n, st', t', b', L, -, hs, hr⟩
    · refine .inr ⟨rfl, ?_, ?_⟩
      · intro n hn
        rw [hn] at hs
        rcases lt_or_ge n 0 with h0 | h0
        · cases hs with
          | refl => simp
          | cons hf =>
            simp only [IterCfg.finished, Except.ok.injEq, decide_eq_false_iff_not] at hf
            exact absurd (show ((0 : Nat) : Int) ≥ n by omega) hf
        · obtain ⟨N, rfl⟩ := Int.eq_ofNat_of_zero_le h0
          have := fixed_steps_le hs
          omega
      · intro ms th n hn
        rw [hn] at hs
        have := conv_steps_le hs
        omega
    · have hsz := (hs.sized hwf h0).1
      rcases hr with hr | ⟨-, hr | ⟨s, hb, hr⟩⟩
      · exact .inl (finished_error hr)
      · obtain ⟨s, hs'⟩ := body_total (k := c.kind) hwf hS hC hsz
        rw [hs'] at hr; cases hr
      · obtain ⟨h1, h2⟩ := body_cmp hwf hsz hb
        obtain ⟨st'', hst⟩ := compare_total ho hm (st := st') h1 h2 hS
        rw [hst] at hr; cases hr
  · split at hx
    · rename_i hf
      unfold AlgCfg.finish at hf
      split at hf
      · rename_i hk'
        exact absurd hk' hk
      · cases hf
    · cases hx

end
/-! ### Scores can be NaN -/

/-- Source 0 alone claims something, sources 1 and 2 disagree. -/
abbrev nanTriples : List (Nat × Nat × Nat) := [(0, 0, 1), (1, 1, 1), (2, 1, 2)]

section
variable {R : Rounding}

theorem nr_div_one {x : FNum} (hx : NR R x) : FNum.div R x (.fin 1) = x := by
  cases hx with
  | nan => rfl
  | inf => simp [FNum.div]
  | fin y h hr => simp only [FNum.div, one_ne_zero, if_false, div_one]; exact hr

theorem nr_mul {x y : FNum} (hx : NN x) (hy : NN y) : NR R (FNum.mul R x y) := by
  cases hx <;> cases hy <;> simp only [FNum.mul] <;> first | exact .nan | exact .inf | skip
  · rename_i y h
    split
    · exact .nan
    · rename_i h'
      rw [FNum.infOf, if_pos (lt_of_le_of_ne h (Ne.symm h'))]; exact .inf
  · rename_i y h
    split
    · exact .nan
    · rename_i h'
      rw [FNum.infOf, if_pos (lt_of_le_of_ne h (Ne.symm h'))]; exact .inf
  · exact nr_rnd (mul_nonneg ‹_› ‹_›)

theorem nr_div {x y : FNum} (hx : NN x) (hy : NN y) : NR R (FNum.div R x y) := by
  cases hx <;> cases hy <;> simp only [FNum.div] <;> first | exact .nan | exact nr_zero | skip
  · rename_i y h
    rw [if_neg (by linarith)]; exact .inf
  · rename_i x hx y hy
    split
    · split
      · exact .nan
      · rename_i h'
        rw [FNum.infOf, if_pos (lt_of_le_of_ne hx (Ne.symm h'))]; exact .inf
    · exact nr_rnd (div_nonneg hx hy)

theorem nr_pow_two {x : FNum} (hx : NR R x) : NR R (FNum.pow R x (.fin 2)) := by
  cases hx with
  | nan => simp [FNum.pow]; exact .nan
  | inf => simp [FNum.pow]; exact .inf
  | fin y h hr =>
    simp only [FNum.pow, FNum.powFin]
    split
    · exact nr_faithful (R.pow_faithful _ _) (Real.rpow_nonneg h 2)
    · rw [if_neg (by norm_num)]
      split
      · rw [if_pos (by norm_num)]; exact nr_zero
      · exfalso
        rename_i a c
        exact a (lt_of_le_of_ne h (Ne.symm c))

/-- The new trust in the example. -/
noncomputable def nanNext (R : Rounding) (x y : FNum) : FNum := FNum.mul R x (FNum.mul R (FNum.div R (.fin 1) x) y)

/-- Vectors of length 3. -/
def v3 (a b c : FP R) : Vec (FP R) := [a, b, c]

theorem nan_step (f2 : R.rnd 2 = .fin 2) {x y : FP R} (hx : NR R x) (hy : NR R y) (h0 : FNum.eq x (.fin 0) = false)
    (h1 : FNum.lt (.fin 1) (nanNext R x y) = false)
    (h2 : FNum.lt (.fin 1) (FNum.pow R (nanNext R x y) (.fin 2)) = false) :
    investBody (Arith.ofNat 2) (matsOf nanTriples none) (v3 (FP.fin 1) x x) (v3 (FP.fin 1) y y) =
      .ok (some ⟨v3 (FP.fin 1) (nanNext R x y) (nanNext R x y), v3 (FP.fin 1) x x,
        v3 (FP.fin 1) (nanNext R x y) (nanNext R x y),
        v3 (FP.fin 1) (FNum.pow R (nanNext R x y) (.fin 2)) (FNum.pow R (nanNext R x y) (.fin 2))⟩) := by
  have one : NR R (FP.fin 1 : FP R) := .fin 1 zero_le_one R.one
  have hinv := nr_div (R := R) one.nn hx.nn
  have hz : NR R (nanNext R x y) := nr_mul hx.nn (nr_mul hinv.nn hy.nn).nn
  have hp := nr_pow_two hz
  have e11 : FNum.div R (.fin 1) (.fin 1) = .fin 1 := nr_div_one one
  have m11 : FNum.mul R (.fin 1) (.fin 1) = .fin 1 := nr_one_mul one
  have a01 : FNum.add R (.fin 0) (.fin 1) = .fin 1 := nr_zero_add one
  have p12 : FNum.pow R (.fin 1) (.fin 2) = .fin 1 := by
    have h := faithful_rep (R.pow_faithful 1 2) (by rw [Real.one_rpow]; exact rep_one)
    rw [Real.one_rpow] at h
    simp only [FNum.pow, FNum.powFin]
    rw [if_pos one_pos]
    exact h
  have q10 : FNum.eq (.fin 1) (.fin 0) = false := by simp [FNum.eq, FNum.toEReal]
  have r0 : R.rnd (0 : Nat) = .fin 0 := by rw [Nat.cast_zero]; exact R.zero
  have r1 : R.rnd (1 : Nat) = .fin 1 := by rw [Nat.cast_one]; exact R.one
  have r2 : R.rnd (2 : Nat) = .fin 2 := by exact_mod_cast f2
  have congr3 : ∀ {a b c a' b' c' : FP R}, a = a' → b = b' → c = c' → v3 a b c = v3 a' b' c' := by
    rintro a b c _ _ _ rfl rfl rfl; rfl
  have cc : claimCounts (matsOf nanTriples none) = v3 (R := R) (FP.fin 1) (FP.fin 1) (FP.fin 1) := by
    have e : FNum.add R (R.rnd (0 : Nat)) (FNum.mul R (R.rnd (1 : Nat)) (R.rnd (1 : Nat))) = .fin 1 := by
      rw [r0, r1, m11, a01]
    exact congr3 e e e
  have scT : ∀ a b c : FP R, NR R a → NR R b → NR R c →
      (matsOf nanTriples none : Mats (FP R)).sc.T.mulVec (v3 a b c) = v3 a b c := by
    intro a b c ha hb hc
    have e : ∀ a : FNum, NR R a → FNum.add R (R.rnd (0 : Nat)) (FNum.mul R (R.rnd (1 : Nat)) a) = a := by
      intro a ha
      rw [r0, r1, nr_one_mul ha, nr_zero_add ha]
    exact congr3 (e a ha) (e b hb) (e c hc)
  have hdiv : ∀ z : FP R, NR R z → vzip Arith.div (v3 (FP.fin 1) z z) (claimCounts (matsOf nanTriples none)) =
      v3 (FP.fin 1) z z := by
    intro z hz
    rw [cc]
    exact congr3 e11 (nr_div_one hz) (nr_div_one hz)
  have hup : updateTrust (matsOf nanTriples none) (v3 (FP.fin 1) x x) (v3 (FP.fin 1) y y) =
      some (v3 (FP.fin 1) (nanNext R x y) (nanNext R x y)) := by
    unfold updateTrust
    rw [hdiv x hx]
    simp only
    rw [scT _ _ _ one hx hx, if_neg]
    · have e1 : FNum.mul R (.fin 1) (FNum.add R (R.rnd (0 : Nat)) (FNum.mul R (FNum.mul R (R.rnd (1 : Nat))
          (FNum.div R (R.rnd (1 : Nat)) (.fin 1))) (.fin 1))) = .fin 1 := by
        rw [r0, r1, e11, m11, m11, a01, m11]
      have e2 : FNum.mul R x (FNum.add R (R.rnd (0 : Nat)) (FNum.mul R (FNum.mul R (R.rnd (1 : Nat))
          (FNum.div R (R.rnd (1 : Nat)) x)) y)) = nanNext R x y := by
        have h : FNum.mul R (.fin 1) (FNum.div R (.fin 1) x) = FNum.div R (.fin 1) x := nr_one_mul hinv
        have h' : FNum.add R (.fin 0) (FNum.mul R (FNum.div R (.fin 1) x) y) = FNum.mul R (FNum.div R (.fin 1) x) y :=
          nr_zero_add (nr_mul hinv.nn hy.nn)
        rw [r0, r1, h, h']
        rfl
      exact congrArg some (congr3 e1 e2 e2)
    · show ¬ (FNum.eq (.fin 1) (R.rnd (0 : Nat)) || (FNum.eq x (R.rnd (0 : Nat)) || (FNum.eq x (R.rnd (0 : Nat)) || false))) = true
      rw [r0, q10, h0]
      simp
  have norm : ∀ z : FP R, NR R z → FNum.lt (.fin 1) z = false →
      normalise (v3 (FP.fin 1) z z) = .ok (v3 (FP.fin 1) z z) := by
    intro z hz hl
    have hl' : Arith.lt (FP.fin 1 : FP R) z = false := hl
    simp only [normalise, pyMax, v3, List.foldl_cons, List.foldl_nil, hl', Bool.false_eq_true, if_false, bind,
      Except.bind, pure, Except.pure]
    exact congrArg Except.ok (congr3 e11 (nr_div_one hz) (nr_div_one hz))
  unfold investBody
  rw [hup]
  have hb : ((matsOf nanTriples none : Mats (FP R)).sc.T.mulVec
      (vzip Arith.div (v3 (FP.fin 1) (nanNext R x y) (nanNext R x y))
        (claimCounts (matsOf nanTriples none)))).map (fun z => Arith.pow z (Arith.ofNat 2)) =
      v3 (FP.fin 1) (FNum.pow R (nanNext R x y) (.fin 2)) (FNum.pow R (nanNext R x y) (.fin 2)) := by
    rw [hdiv _ hz, scT _ _ _ one hz hz]
    have e1 : FNum.pow R (.fin 1) (R.rnd (2 : Nat)) = .fin 1 := by rw [r2, p12]
    have e2 : FNum.pow R (nanNext R x y) (R.rnd (2 : Nat)) = FNum.pow R (nanNext R x y) (.fin 2) := by rw [r2]
    exact congr3 e1 e2 e2
  simp only
  rw [hb, norm _ hz h1]
  simp only [bind, Except.bind]
  rw [norm _ hp h2]
  rfl

end

open Double in
/-- Powers of two in the range of binary64 are represented exactly. -/
theorem rep_two {a : ℤ} (h1 : -1074 ≤ a) (h2 : a ≤ 1023) : Rep (.binary64 ω) ((2 : ℝ) ^ a) := by
  have hlog : Int.log 2 ((2 : ℝ) ^ a) = a := by
    have := Int.log_zpow (R := ℝ) (b := 2) (by norm_num) a
    exact_mod_cast this
  obtain ⟨k, hk⟩ := pow_multiple (a := a) (e := lastPlace ((2 : ℝ) ^ a)) (by unfold lastPlace; omega)
  show Double.rnd _ = _
  rw [rnd_nonneg (two_zpow_pos _).le, roundNonneg_multiple hk, if_neg]
  rw [not_le]
  calc (2 : ℝ) ^ a ≤ 2 ^ (1023 : ℤ) := zpow_le_zpow_right₀ (by norm_num) h2
    _ < 2 ^ (1024 : ℤ) := zpow_lt_zpow_right₀ (by norm_num) (by norm_num)
    _ = 2 ^ 1024 := zpow_natCast 2 1024

open Double in
theorem rnd_huge : Double.rnd ((2 : ℝ) ^ (1024 : ℤ)) = .pinf := by
  have hlog : Int.log 2 ((2 : ℝ) ^ (1024 : ℤ)) = 1024 := by
    have := Int.log_zpow (R := ℝ) (b := 2) (by norm_num) 1024
    exact_mod_cast this
  obtain ⟨k, hk⟩ := pow_multiple (a := 1024) (e := lastPlace ((2 : ℝ) ^ (1024 : ℤ))) (by unfold lastPlace; omega)
  rw [rnd_nonneg (two_zpow_pos _).le, roundNonneg_multiple hk, if_pos]
  exact (zpow_natCast (2 : ℝ) 1024).symm.le

open Double in
theorem rnd_tiny {x : ℝ} (h0 : 0 ≤ x) (h : x ≤ (2 : ℝ) ^ (-2047 : ℤ)) : Double.rnd x = .fin 0 := by
  have hlog : Int.log 2 ((2 : ℝ) ^ (-2047 : ℤ)) = -2047 := by
    have := Int.log_zpow (R := ℝ) (b := 2) (by norm_num) (-2047)
    exact_mod_cast this
  have hlp : lastPlace ((2 : ℝ) ^ (-2047 : ℤ)) = -1074 := by unfold lastPlace; omega
  have hz : roundNonneg ((2 : ℝ) ^ (-2047 : ℤ)) = 0 := by
    unfold roundNonneg
    rw [hlp, ← zpow_sub₀ two_ne_zero]
    have hlt : (2 : ℝ) ^ ((-2047 : ℤ) - -1074) < 1 / 2 := by
      calc (2 : ℝ) ^ ((-2047 : ℤ) - -1074) < 2 ^ (-1 : ℤ) := zpow_lt_zpow_right₀ (by norm_num) (by norm_num)
        _ = 1 / 2 := by norm_num
    have hfl : ⌊(2 : ℝ) ^ ((-2047 : ℤ) - -1074)⌋ = 0 := by
      rw [Int.floor_eq_zero_iff]
      exact ⟨(two_zpow_pos _).le, hlt.trans (by norm_num)⟩
    have : nearest ((2 : ℝ) ^ ((-2047 : ℤ) - -1074)) = 0 := by
      unfold nearest
      rw [hfl, if_pos (by simpa using hlt)]
    rw [this]
    simp
  have h1 := roundNonneg_mono h0 h
  rw [hz] at h1
  rw [rnd_nonneg h0, le_antisymm h1 (roundNonneg_nonneg h0), if_neg (by norm_num)]

/-- Exponent of the trust of sources 1 and 2 in iteration `j`. -/
def nanExp : Nat → Nat
  | 0 => 0
  | j + 1 => 2 ^ j

/-- Trust of sources 1 and 2 and belief in their claims after `j` iterations. -/
noncomputable def nanSeq (ω : Platform) (j : Nat) : FP (.binary64 ω) × FP (.binary64 ω) :=
  if j ≤ 10 then (FP.fin (2 ^ (-(nanExp j : ℤ))), FP.fin (2 ^ (-((2 ^ j : Nat) : ℤ))))
  else if j = 11 then (FP.fin (2 ^ (-1024 : ℤ)), FP.fin 0) else (FP.nan, FP.nan)

theorem nanExp_le {j : Nat} (h : j ≤ 10) : nanExp j ≤ 512 ∧ nanExp j ≤ 2 ^ j ∧ 2 ^ j ≤ 1024 := by
  rcases j with _ | j
  · exact ⟨Nat.zero_le _, Nat.zero_le _, by norm_num⟩
  · have h1 : 2 ^ j ≤ 2 ^ 9 := Nat.pow_le_pow_right (by norm_num) (by omega)
    have h2 : 2 ^ (j + 1) = 2 * 2 ^ j := by ring
    have h3 : nanExp (j + 1) = 2 ^ j := rfl
    norm_num at h1
    omega

theorem nr_two {a : ℤ} (h1 : -1074 ≤ a) (h2 : a ≤ 1023) : NR (.binary64 ω) (.fin ((2 : ℝ) ^ a)) :=
  .fin _ (Double.two_zpow_pos a).le (rep_two h1 h2)

theorem nanNext_two {p q : ℤ} (h1 : 0 ≤ p) (h2 : p ≤ 1023) (h3 : p ≤ q) (h4 : q ≤ 1074) :
    nanNext (.binary64 ω) (.fin (2 ^ (-p))) (.fin (2 ^ (-q))) = .fin (2 ^ (-q)) := by
  have e1 : FNum.div (.binary64 ω) (.fin 1) (.fin (2 ^ (-p))) = .fin (2 ^ p) := by
    simp only [FNum.div]
    rw [if_neg (Double.two_zpow_pos _).ne', one_div, ← zpow_neg, neg_neg]
    exact rep_two (by omega) h2
  have e2 : FNum.mul (.binary64 ω) (.fin (2 ^ p)) (.fin (2 ^ (-q))) = .fin (2 ^ (p - q)) := by
    simp only [FNum.mul]
    rw [← zpow_add₀ two_ne_zero, ← sub_eq_add_neg]
    exact rep_two (by omega) (by omega)
  have e3 : FNum.mul (.binary64 ω) (.fin (2 ^ (-p))) (.fin (2 ^ (p - q))) = .fin (2 ^ (-q)) := by
    simp only [FNum.mul]
    rw [← zpow_add₀ two_ne_zero, show -p + (p - q) = -q by ring]
    exact rep_two (by omega) (by omega)
  unfold nanNext
  rw [e1, e2, e3]

theorem pow_two_two {q : ℤ} (h0 : 0 ≤ q) (hq : q ≤ 512 ∨ q = 1024) :
    FNum.pow (.binary64 ω) (.fin (2 ^ (-q))) (.fin 2) = Double.rnd (2 ^ (-(2 * q))) := by
  have e : ((2 : ℝ) ^ (-q)) ^ (2 : ℝ) = 2 ^ (-(2 * q)) := by
    rw [show (2 : ℝ) = ((2 : ℕ) : ℝ) by norm_num, Real.rpow_natCast, ← zpow_natCast, ← zpow_mul]
    congr 1
    push_cast; ring
  simp only [FNum.pow, FNum.powFin]
  rw [if_pos (Double.two_zpow_pos _)]
  rcases hq with hq | rfl
  · have hr : Rep (.binary64 ω) (2 ^ (-(2 * q))) := rep_two (by omega) (by omega)
    have := faithful_rep ((Rounding.binary64 ω).pow_faithful (2 ^ (-q)) 2) (by rw [e]; exact hr)
    rw [this, e]
    exact hr.symm
  · have hb := abs_le.1 (ω.powErr_le (2 ^ (-(1024 : ℤ))) 2)
    have hs : (2⁻¹ : ℝ) ^ 55 ≤ 1 := pow_le_one₀ (by norm_num) (by norm_num)
    have hp := Double.two_zpow_pos (-(2 * 1024))
    show Double.rnd (((2 : ℝ) ^ (-(1024 : ℤ))) ^ (2 : ℝ) * (1 + ω.powErr (2 ^ (-(1024 : ℤ))) 2)) = _
    rw [e, show (-(2 * 1024) : ℤ) = -2048 by norm_num, rnd_tiny (x := 2 ^ (-2048 : ℤ)) (Double.two_zpow_pos _).le (zpow_le_zpow_right₀ one_le_two (by norm_num)), rnd_tiny]
    · refine mul_nonneg (Double.two_zpow_pos _).le (by linarith [hb.1])
    · calc (2 : ℝ) ^ (-2048 : ℤ) * (1 + ω.powErr (2 ^ (-(1024 : ℤ))) 2) ≤ 2 ^ (-2048 : ℤ) * 2 :=
          mul_le_mul_of_nonneg_left (by linarith [hb.2]) (Double.two_zpow_pos _).le
        _ = 2 ^ (-2047 : ℤ) := by rw [← zpow_add_one₀ two_ne_zero]; norm_num

theorem nan_seq (j : Nat) : investBody (Arith.ofNat 2) (matsOf nanTriples none)
    (v3 (FP.fin 1) (nanSeq ω j).1 (nanSeq ω j).1) (v3 (FP.fin 1) (nanSeq ω j).2 (nanSeq ω j).2) =
      .ok (some ⟨v3 (FP.fin 1) (nanSeq ω (j + 1)).1 (nanSeq ω (j + 1)).1, v3 (FP.fin 1) (nanSeq ω j).1 (nanSeq ω j).1,
        v3 (FP.fin 1) (nanSeq ω (j + 1)).1 (nanSeq ω (j + 1)).1,
        v3 (FP.fin 1) (nanSeq ω (j + 1)).2 (nanSeq ω (j + 1)).2⟩) := by
  have f2 : (Rounding.binary64 ω).rnd 2 = .fin 2 := by
    have := rep_two (ω := ω) (a := 1) (by norm_num) (by norm_num)
    rwa [zpow_one] at this
  have lt1 : ∀ q : ℤ, 0 ≤ q → FNum.lt (.fin 1) (.fin ((2 : ℝ) ^ (-q))) = false := by
    intro q hq
    have : (2 : ℝ) ^ (-q) ≤ 1 := zpow_le_one_of_nonpos₀ (by norm_num) (by omega)
    exact (FP.lt_fin (R := .binary64 ω) _ _).trans (decide_eq_false (not_lt.2 this))
  have ne0 : ∀ q : ℤ, FNum.eq (.fin ((2 : ℝ) ^ (-q))) (.fin 0) = false := by
    intro q
    have : (2 : ℝ) ^ (-q) ≠ 0 := (Double.two_zpow_pos _).ne'
    refine decide_eq_false fun h => this ?_
    simpa [FNum.toEReal] using h
  have ltn : FNum.lt (.fin 1) .nan = false := rfl
  rcases Nat.lt_or_ge 10 j with hj | hj
  · rcases Nat.lt_or_ge 11 j with hj' | hj'
    · have e : ∀ k, 11 < k → nanSeq ω k = (FP.nan, FP.nan) := by
        intro k hk
        unfold nanSeq
        rw [if_neg (by omega), if_neg (by omega)]
      rw [e j hj', e (j + 1) (by omega)]
      have en : nanNext (.binary64 ω) .nan .nan = .nan := rfl
      have ep : FNum.pow (.binary64 ω) .nan (.fin 2) = .nan := by simp [FNum.pow]
      have h := nan_step f2 (x := FP.nan) (y := FP.nan) .nan .nan rfl
        (by show FNum.lt _ (nanNext _ .nan .nan) = _; rw [en, ltn])
        (by show FNum.lt _ (FNum.pow _ (nanNext _ .nan .nan) _) = _; rw [en, ep, ltn])
      have e' : nanNext (.binary64 ω) (FP.nan : FP (.binary64 ω)) (FP.nan : FP (.binary64 ω)) = .nan := en
      rw [e', ep] at h
      exact h
    · obtain rfl : j = 11 := by omega
      have e1 : nanSeq ω 11 = (FP.fin (2 ^ (-1024 : ℤ)), FP.fin 0) := by
        unfold nanSeq; rw [if_neg (by norm_num), if_pos rfl]
      have e2 : nanSeq ω (11 + 1) = (FP.nan, FP.nan) := by
        unfold nanSeq; rw [if_neg (by norm_num), if_neg (by norm_num)]
      rw [e1, e2]
      have en : nanNext (.binary64 ω) (.fin (2 ^ (-1024 : ℤ))) (.fin 0) = .nan := by
        have d1 : FNum.div (.binary64 ω) (.fin 1) (.fin (2 ^ (-1024 : ℤ))) = .pinf := by
          simp only [FNum.div]
          rw [if_neg (Double.two_zpow_pos _).ne', one_div, ← zpow_neg, neg_neg]
          exact rnd_huge
        unfold nanNext
        rw [d1]
        simp [FNum.mul]
      have ep : FNum.pow (.binary64 ω) .nan (.fin 2) = .nan := by simp [FNum.pow]
      have h := nan_step f2 (x := FP.fin (2 ^ (-1024 : ℤ))) (y := FP.fin 0) (nr_two (by norm_num) (by norm_num)) nr_zero
        (ne0 1024) (by show FNum.lt _ (nanNext _ (.fin _) (.fin _)) = _; rw [en, ltn])
        (by show FNum.lt _ (FNum.pow _ (nanNext _ (.fin _) (.fin _)) _) = _; rw [en, ep, ltn])
      have e' : nanNext (.binary64 ω) (FP.fin (2 ^ (-1024 : ℤ)) : FP (.binary64 ω)) (FP.fin 0 : FP (.binary64 ω)) = .nan := en
      rw [e', ep] at h
      exact h
  · obtain ⟨b1, b2, b3⟩ := nanExp_le hj
    have e1 : nanSeq ω j = (FP.fin (2 ^ (-(nanExp j : ℤ))), FP.fin (2 ^ (-((2 ^ j : Nat) : ℤ)))) := by
      unfold nanSeq; rw [if_pos hj]
    have hx : nanNext (.binary64 ω) (FP.fin (2 ^ (-(nanExp j : ℤ))) : FP (.binary64 ω))
        (FP.fin (2 ^ (-((2 ^ j : Nat) : ℤ))) : FP (.binary64 ω)) = .fin (2 ^ (-((2 ^ j : Nat) : ℤ))) :=
      nanNext_two (by omega) (by omega) (by exact_mod_cast b2) (by have : ((2 ^ j : Nat) : ℤ) ≤ 1024 := by exact_mod_cast b3
                                                                   omega)
    have hb3 : ((2 ^ j : Nat) : ℤ) ≤ 1024 := by exact_mod_cast b3
    have hp : FNum.pow (.binary64 ω) (.fin (2 ^ (-((2 ^ j : Nat) : ℤ)))) (.fin 2) =
        Double.rnd (2 ^ (-(2 * ((2 ^ j : Nat) : ℤ)))) := by
      refine pow_two_two (by omega) ?_
      rcases Nat.lt_or_ge j 10 with h | h
      · have hle : 2 ^ j ≤ 512 := le_trans (Nat.pow_le_pow_right (by norm_num) (show j ≤ 9 by omega)) (by norm_num)
        exact .inl (by exact_mod_cast hle)
      · obtain rfl : j = 10 := by omega
        exact .inr (by norm_num)
    have e2 : nanSeq ω (j + 1) = (FP.fin (2 ^ (-((2 ^ j : Nat) : ℤ))), Double.rnd (2 ^ (-(2 * ((2 ^ j : Nat) : ℤ))))) := by
      unfold nanSeq
      rcases Nat.lt_or_ge j 10 with h | h
      · rw [if_pos (by omega)]
        have hle : 2 ^ j ≤ 512 := le_trans (Nat.pow_le_pow_right (by norm_num) (show j ≤ 9 by omega)) (by norm_num)
        have hle' : ((2 ^ j : Nat) : ℤ) ≤ 512 := by exact_mod_cast hle
        have hr : Double.rnd (2 ^ (-(2 * ((2 ^ j : Nat) : ℤ)))) = .fin (2 ^ (-(2 * ((2 ^ j : Nat) : ℤ)))) :=
          rep_two (ω := ω) (by omega) (by omega)
        rw [hr]
        have : ((2 ^ (j + 1) : Nat) : ℤ) = 2 * ((2 ^ j : Nat) : ℤ) := by push_cast; ring
        rw [this]
        rfl
      · obtain rfl : j = 10 := by omega
        rw [if_neg (by norm_num), if_pos rfl]
        have : Double.rnd (2 ^ (-(2 * ((2 ^ 10 : Nat) : ℤ)))) = .fin 0 := rnd_tiny (Double.two_zpow_pos _).le (zpow_le_zpow_right₀ one_le_two (by norm_num))
        rw [this]
        rfl
    rw [e1, e2]
    have hlt2 : FNum.lt (.fin 1) (Double.rnd (2 ^ (-(2 * ((2 ^ j : Nat) : ℤ))))) = false := by
      have hle : ((2 : ℝ) ^ (-(2 * ((2 ^ j : Nat) : ℤ)))) ≤ 1 := zpow_le_one_of_nonpos₀ (by norm_num) (by omega)
      have hu := un_rnd (R := .binary64 ω) (Double.two_zpow_pos (-(2 * ((2 ^ j : Nat) : ℤ)))).le hle
      change UN (Double.rnd _) at hu
      generalize Double.rnd (2 ^ (-(2 * ((2 ^ j : Nat) : ℤ)))) = z at hu ⊢
      cases hu with
      | nan => rfl
      | fin y h h1 =>
        exact (FP.lt_fin (R := .binary64 ω) _ _).trans (decide_eq_false (not_lt.2 h1))
    have h := nan_step f2 (x := FP.fin (2 ^ (-(nanExp j : ℤ)))) (y := FP.fin (2 ^ (-((2 ^ j : Nat) : ℤ))))
      (nr_two (by omega) (by omega)) (nr_two (by omega) (by omega)) (ne0 _)
      (by rw [hx]; exact lt1 _ (by omega)) (by rw [hx, hp]; exact hlt2)
    rw [hx, hp] at h
    exact h

/-- **C76.** Scores can be NaN: in binary64, Investment with `g = 2`, everything else as by
default (20 iterations, voted priors), on a dataset of three claims, reports NaN for two of the
three sources and two of the three claims. -/
theorem C76_nan (clock : Nat → FP (.binary64 ω)) :
    ∃ (d : Dataset Nat Nat Nat (FP (.binary64 ω))) (r : Result Nat Nat Nat (FP (.binary64 ω))),
      Dataset.mk' nanTriples false none = .ok d ∧
      (⟨.investment (Arith.ofNat 2), .fixed 20, some .voted⟩ : AlgCfg (FP (.binary64 ω))).run d 100 clock = .ok r ∧
      r.iterations = some 20 ∧
      r.trust = [(0, FP.fin 1), (1, FP.nan), (2, FP.nan)] ∧
      r.belief = [(0, [(1, FP.fin 1)]), (1, [(1, FP.nan), (2, FP.nan)])] := by
  have hd := (mk'_ok_iff nanTriples (one_ne_zero_fp (R := .binary64 ω)) false none _).2
    ⟨rfl, .inr (by simp [NoRepeats]), by simp [optImpBad]⟩
  have hsteps : ∀ n j, j + n ≤ 20 → ∃ L, Steps (.fixed 20)
      ((Kind.investment (Arith.ofNat 2) : Kind (FP (.binary64 ω))).body (matsOf nanTriples none)) { itCount := j }
      (v3 (FP.fin 1) (nanSeq ω j).1 (nanSeq ω j).1) (v3 (FP.fin 1) (nanSeq ω j).2 (nanSeq ω j).2) n { itCount := j + n }
      (v3 (FP.fin 1) (nanSeq ω (j + n)).1 (nanSeq ω (j + n)).1) (v3 (FP.fin 1) (nanSeq ω (j + n)).2 (nanSeq ω (j + n)).2) L := by
    intro n
    induction n with
    | zero => intro j _; exact ⟨[], .refl _ _ _⟩
    | succ n ih =>
      intro j hj
      obtain ⟨L, hL⟩ := ih (j + 1) (by omega)
      rw [show j + 1 + n = j + (n + 1) by omega] at hL
      refine ⟨_, .cons ?_ (nan_seq j) rfl hL⟩
      simp only [IterCfg.finished, Except.ok.injEq, decide_eq_false_iff_not]
      omega
  obtain ⟨L, hL⟩ := hsteps 20 0 (by norm_num)
  rw [show 0 + 20 = 20 from rfl] at hL
  have e20 : nanSeq ω 20 = (FP.nan, FP.nan) := by
    unfold nanSeq; rw [if_neg (by norm_num), if_neg (by norm_num)]
  have e0 : nanSeq ω 0 = (FP.fin 1, FP.fin (1 / 2)) := by
    unfold nanSeq
    rw [if_pos (by norm_num)]
    norm_num [nanExp]
  rw [e20, e0] at hL
  have one : NR (.binary64 ω) (FP.fin 1 : FP (.binary64 ω)) := .fin 1 zero_le_one (Rounding.binary64 ω).one
  have r0 : (Rounding.binary64 ω).rnd (0 : Nat) = .fin 0 := by rw [Nat.cast_zero]; exact Rounding.zero _
  have r1 : (Rounding.binary64 ω).rnd (1 : Nat) = .fin 1 := by rw [Nat.cast_one]; exact Rounding.one _
  have r2 : (Rounding.binary64 ω).rnd 2 = .fin 2 := by
    have := rep_two (ω := ω) (a := 1) (by norm_num) (by norm_num)
    rwa [zpow_one] at this
  have rh : (Rounding.binary64 ω).rnd (1 / 2) = .fin (1 / 2) := by
    have := rep_two (ω := ω) (a := -1) (by norm_num) (by norm_num)
    rwa [show (2 : ℝ) ^ (-1 : ℤ) = 1 / 2 by norm_num] at this
  have a01 : FNum.add (.binary64 ω) (.fin 0) (.fin 1) = .fin 1 := nr_zero_add one
  have m11 : FNum.mul (.binary64 ω) (.fin 1) (.fin 1) = .fin 1 := nr_one_mul one
  have d11 : FNum.div (.binary64 ω) (.fin 1) (.fin 1) = .fin 1 := nr_div_one one
  have a11 : FNum.add (.binary64 ω) (.fin 1) (.fin 1) = .fin 2 := by
    show (Rounding.binary64 ω).rnd (1 + 1) = _
    rw [one_add_one_eq_two]; exact r2
  have d12 : FNum.div (.binary64 ω) (.fin 1) (.fin 2) = .fin (1 / 2) := by
    simp only [FNum.div]
    rw [if_neg (by norm_num)]; exact rh
  have congr3 : ∀ {a b c a' b' c' : FP (.binary64 ω)}, a = a' → b = b' → c = c' → v3 a b c = v3 a' b' c' := by
    rintro a b c _ _ _ rfl rfl rfl; rfl
  have hsc : sourceCounts (matsOf nanTriples none) = v3 (R := .binary64 ω) (FP.fin 1) (FP.fin 1) (FP.fin 1) := by
    have e : FNum.add (.binary64 ω) ((Rounding.binary64 ω).rnd (0 : Nat)) (FNum.mul (.binary64 ω) ((Rounding.binary64 ω).rnd (1 : Nat))
        ((Rounding.binary64 ω).rnd (1 : Nat))) = .fin 1 := by
      rw [r0, r1, m11, a01]
    exact congr3 e e e
  have hmx : (matsOf nanTriples none : Mats (FP (.binary64 ω))).mutEx.mulVec (v3 (FP.fin 1) (FP.fin 1) (FP.fin 1)) =
      v3 (FP.fin 1) (FP.fin 2) (FP.fin 2) := by
    have e1 : FNum.add (.binary64 ω) ((Rounding.binary64 ω).rnd (0 : Nat)) (FNum.mul (.binary64 ω) ((Rounding.binary64 ω).rnd (1 : Nat))
        (.fin 1)) = .fin 1 := by rw [r0, r1, m11, a01]
    have e2 : FNum.add (.binary64 ω) (FNum.add (.binary64 ω) ((Rounding.binary64 ω).rnd (0 : Nat))
        (FNum.mul (.binary64 ω) ((Rounding.binary64 ω).rnd (1 : Nat)) (.fin 1)))
        (FNum.mul (.binary64 ω) ((Rounding.binary64 ω).rnd (1 : Nat)) (.fin 1)) = .fin 2 := by
      rw [r0, r1, m11, a01, a11]
    exact congr3 e1 e2 e2
  have hprior : priorBeliefs (some .voted) (matsOf nanTriples none) =
      .ok (v3 (R := .binary64 ω) (FP.fin 1) (FP.fin (1 / 2)) (FP.fin (1 / 2))) := by
    simp only [priorBeliefs]
    rw [hsc, hmx]
    exact congrArg Except.ok (congr3 d11 d12 d12)
  have hinit : (⟨.investment (Arith.ofNat 2), .fixed 20, some .voted⟩ : AlgCfg (FP (.binary64 ω))).init
      (matsOf nanTriples none) = .ok (v3 (FP.fin 1) (FP.fin 1) (FP.fin 1),
        v3 (FP.fin 1) (FP.fin (1 / 2)) (FP.fin (1 / 2))) := by
    simp only [AlgCfg.init, hprior, bind, Except.bind, pure, Except.pure]
    have : (ones (matsOf nanTriples none : Mats (FP (.binary64 ω))).numSources : Vec (FP (.binary64 ω))) =
        v3 (FP.fin 1) (FP.fin 1) (FP.fin 1) := congr3 r1 r1 r1
    rw [this]
  refine ⟨_, resultOf nanTriples (v3 (FP.fin 1) FP.nan FP.nan) (v3 (FP.fin 1) FP.nan FP.nan)
    (clock 1 -. clock 0) (some 20), hd, ?_, rfl, rfl, rfl⟩
  rw [run_eq]
  have hex := (exec_ok_iff (⟨.investment (Arith.ofNat 2), .fixed 20, some .voted⟩ : AlgCfg (FP (.binary64 ω)))
    (matsOf nanTriples none) 100 {} ⟨v3 (FP.fin 1) FP.nan FP.nan, v3 (FP.fin 1) FP.nan FP.nan, 20, _⟩).2
    ⟨(show (3 : Nat) ≠ 0 by decide), _, _, 20, _, _, _, L, hinit, by norm_num, hL, .inl rfl, rfl, rfl, rfl⟩
  rw [hex]

/-- C76_range applies to that run. -/
example (clock : Nat → FP (.binary64 ω)) : ∃ r : Result Nat Nat Nat (FP (.binary64 ω)),
    ScoresAre r UnitOrNan UnitOrNan ∧ r.trust.get? 1 = some FP.nan ∧ r.trust.get? 0 = some (FP.fin 1) := by
  obtain ⟨d, r, hd, hr, hk, ht, hb⟩ := C76_nan clock
  refine ⟨r, (C76_range _ _ _ _ hd _ _ _ _ r hr 20 hk (by norm_num)).2, ?_, ?_⟩ <;> rw [ht] <;> rfl

/-- C76_exceptions: an iterator that gives up at once. -/
example (clock : Nat → FP (.binary64 ω)) : ∃ d : Dataset Nat Nat Nat (FP (.binary64 ω)),
    Dataset.mk' nanTriples false none = .ok d ∧
    (⟨.averageLog, .conv (some .l2) (Arith.lit 1 1000) 0, some .voted⟩ : AlgCfg (FP (.binary64 ω))).run d 5 clock =
      .error .convergence := by
  have hd := (mk'_ok_iff nanTriples (one_ne_zero_fp (R := .binary64 ω)) false none _).2
    ⟨rfl, .inr (by simp [NoRepeats]), by simp [optImpBad]⟩
  exact ⟨_, hd, rfl⟩

/-- C76_voting: the vote of two sources against one. -/
example (clock : Nat → FP (.binary64 ω)) : ∃ (d : Dataset Nat Nat Nat (FP (.binary64 ω))) (r : Result Nat Nat Nat (FP (.binary64 ω))),
    Dataset.mk' nanTriples false none = .ok d ∧ votingRun d clock = .ok r ∧ ScoresAre r (· = FP.fin 1) UnitOrNan := by
  have hd := (mk'_ok_iff nanTriples (one_ne_zero_fp (R := .binary64 ω)) false none _).2
    ⟨rfl, .inr (by simp [NoRepeats]), by simp [optImpBad]⟩
  obtain ⟨r, hr, -⟩ := C29_rounded C31_binary64 nanTriples false none _ hd (by simp) (by decide) clock
  exact ⟨_, r, hd, hr, (C76_voting _ _ _ _ hd clock r hr).2⟩

end TD
