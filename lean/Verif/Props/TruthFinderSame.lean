import Verif.Lemmas.Follows
import Verif.Props.TruthFinderFollows
import Verif.Props.Contracts
/-!
# C114: where TruthFinder stops in double precision
-/

namespace TD
open Spec Double Ex
attribute [-instance] instBEqProd
variable {S V X : Type} [DecidableEq S] [DecidableEq V] [DecidableEq X] {ω : Platform}
local notation "D" => FP (Rounding.binary64 ω)

/-- Trust scores close to the exact ones after `n` iterations. -/
def TfNear (l : List (S × V × X)) (a b : Nat) (g t0 δ : ℝ) (n : Nat) (t : Vec D) : Prop :=
  ∃ y : S → ℝ, t = (sources l).map (fun s => FP.fin (y s)) ∧ ∀ s ∈ sources l, IsDouble (y s) ∧ 1 / 4 ≤ y s ∧ y s < 1 ∧
    |y s - (tfExact l g t0 n).1 s| ≤ tfErr a b g δ n ∧ |Real.log (1 - y s) - Real.log (1 - (tfExact l g t0 n).1 s)| ≤ tfErr a b g δ n

theorem tf_any {l : List (S × V × X)} {y : S → ℝ} (h : ∀ s ∈ sources l, y s < 1) :
    ((sources l).map fun s => (FP.fin (y s) : D)).any (fun t => Arith.eq t (Arith.ofNat 1)) = false := by
  rw [List.any_eq_false]
  intro x hx
  obtain ⟨s, hs, rfl⟩ := List.mem_map.1 hx
  rw [FP.one_eq]
  show ¬ FNum.eq (.fin (y s)) (.fin 1) = true
  simp only [FNum.eq, FNum.toEReal]
  simpa using (h s hs).ne

theorem tfNear_next {l : List (S × V × X)} (hS : (sources l).length ≤ 2 ^ 46) (hC : (claims l).length ≤ 2 ^ 46)
    {a b : Nat} (ha : ∀ s, (claimsOf l s).card ≤ a) (hb : ∀ c, (sourcesOf l c).card ≤ b)
    (rho : D) {g t0 δ : ℝ} (hg : 0 ≤ g) (hg1 : g ≤ 1) (h0 : 0 ≤ t0) (h1 : t0 < 1) (hδ : 0 < δ) (hδ1 : δ ≤ 1) {n : Nat}
    (hk : tfErr a b g δ (n + 1) ≤ 1 / 2) (hx : ∀ s ∈ allSources l, (tfExact l g t0 (n + 1)).1 s ≤ 1 - δ) {t : Vec D}
    (h : TfNear l a b g t0 δ n t) (bl : Vec D) :
    ∃ s, tfBody (α := D) rho (FP.fin g) (matsOf l none) t bl = .ok (some s) ∧ TfNear l a b g t0 δ (n + 1) s.trust ∧
      s.cmp1 = s.trust ∧ s.cmp2 = t := by
  obtain ⟨y, rfl, hy⟩ := h
  have hgood : TfGood l (fun s => (FP.fin (y s) : D)) := fun s hs => .inr ⟨y s, rfl, (hy s hs).1, (hy s hs).2.1⟩
  have hne : ∀ s ∈ sources l, (FP.fin (y s) : D) ≠ FP.fin 1 := by
    intro s hs h
    have : y s = 1 := by injection h
    linarith [(hy s hs).2.2.1]
  have hbody := tfBody_labels (R := .binary64 ω) l rho (FP.fin g) (fun s => FP.fin (y s)) bl
  rw [tf_any fun s hs => (hy s hs).2.2.1] at hbody
  simp only [Bool.false_eq_true, if_false] at hbody
  refine ⟨_, hbody, ?_, rfl, rfl⟩
  have hacc := tf_accurate hS hC hg hg1 hgood hne
    (r := resultOf l ((sources l).map fun s => (FP.fin (y s) : D)) ((claims l).map fun _ => (FP.fin 0 : D)) (FP.fin 0) none)
    (r' := resultOf l ((sources l).map (tfTrust l (tfNewB l (FP.fin g) fun s => (FP.fin (y s) : D))))
      ((claims l).map (tfNewB l (FP.fin g) fun s => (FP.fin (y s) : D))) (FP.fin 0) none)
    (fun s => by rw [trust_resultOf]) (fun s => by rw [trust_resultOf]) (fun v x => by rw [belief_resultOf])
  obtain ⟨hclose, hgap⟩ := gap_next ha hb hg h0 h1 hδ hδ1 hacc hk (fun s hs => by
    have hs' := (mem_allSources l).1 hs
    refine ⟨y s, ?_, (hy s hs').2.2.1, (hy s hs').2.2.2.2⟩
    unfold HasTrust
    rw [trust_resultOf, if_pos hs'])
  have hgap := hgap hx
  have hgood' := tfNewT_good hS hC hg hg1 hgood hne
  have pick : ∀ s ∈ sources l, ∃ z, tfTrust l (tfNewB l (FP.fin g) fun s => (FP.fin (y s) : D)) s = FP.fin z ∧ IsDouble z ∧ 1 / 4 ≤ z ∧ z < 1 ∧
      |z - (tfExact l g t0 (n + 1)).1 s| ≤ tfErr a b g δ (n + 1) ∧
      |Real.log (1 - z) - Real.log (1 - (tfExact l g t0 (n + 1)).1 s)| ≤ tfErr a b g δ (n + 1) := by
    intro s hs
    obtain ⟨z, z1, z2, z3⟩ := hgap s ((mem_allSources l).2 hs)
    obtain ⟨w, w1, w2⟩ := hclose.1 s ((mem_allSources l).2 hs)
    unfold HasTrust at z1 w1
    rw [trust_resultOf, if_pos hs, Option.some.injEq] at z1 w1
    rw [z1] at w1
    obtain rfl : z = w := by injection w1
    rcases hgood' s hs with h3 | ⟨u, h3, h4, h5⟩
    · rw [z1] at h3; cases h3
    · rw [z1] at h3
      obtain rfl : z = u := by injection h3
      exact ⟨z, z1, h4, h5, z2, w2, z3⟩
  obtain ⟨z, hz⟩ := choose_on pick
  refine ⟨z, ?_, fun s hs => (hz s hs).2⟩
  exact List.map_congr_left fun s hs => (hz s hs).1

/-- TruthFinder follows the exact scores. -/
theorem tf_follows {l : List (S × V × X)} (hS : (sources l).length ≤ 2 ^ 46) (hC : (claims l).length ≤ 2 ^ 46)
    {a b : Nat} (ha : ∀ s, (claimsOf l s).card ≤ a) (hb : ∀ c, (sourcesOf l c).card ≤ b)
    (rho : D) {g t0 δ : ℝ} (hg : 0 ≤ g) (hg1 : g ≤ 1) (ht : IsDouble t0) (h0 : 1 / 4 ≤ t0) (hδ : 0 < δ) (h1 : t0 ≤ 1 - δ) {K : Nat}
    (hk : tfErr a b g δ K ≤ 1 / 2) (hx : ∀ j, 1 ≤ j → j ≤ K → ∀ s ∈ allSources l, (tfExact l g t0 j).1 s ≤ 1 - δ)
    (it : IterCfg D) (pr : Option Prior) :
    Follows ⟨.truthFinder rho (FP.fin g) (FP.fin t0), it, pr⟩ l none (fun n => (tfExact l g t0 n).1) (tfErr a b g δ K) K
      (TfNear l a b g t0 δ) where
  start := by
    refine ⟨_, _, rfl, fun _ => t0, ?_, fun s _ => ⟨ht, h0, by linarith, ?_, ?_⟩⟩
    · rw [List.map_const']; rfl
    · show |t0 - t0| ≤ _
      rw [sub_self, abs_zero]
      exact tfErr_nonneg a b hg hδ 0
    · show |Real.log (1 - t0) - Real.log (1 - t0)| ≤ _
      rw [sub_self, abs_zero]
      exact tfErr_nonneg a b hg hδ 0
  near := by
    rintro n hn t ⟨y, rfl, hy⟩
    refine ⟨y, rfl, fun s hs => ⟨(hy s hs).1, by linarith [(hy s hs).2.1], (hy s hs).2.2.1.le, ?_⟩⟩
    exact (hy s hs).2.2.2.1.trans (tfErr_mono a b hg hδ hn)
  next := by
    intro n hn t bl h
    obtain ⟨s, h1', h2, h3, h4⟩ := tfNear_next hS hC ha hb rho hg hg1 (by linarith) (by linarith) hδ (by linarith)
      ((tfErr_mono a b hg hδ hn).trans hk) (hx (n + 1) (by omega) hn) h bl
    exact ⟨s, h1', h2, .inr ⟨h3, h4⟩⟩
  goes := by
    rintro n hn t bl ⟨y, rfl, hy⟩ h
    have hbody := tfBody_labels (R := .binary64 ω) l rho (FP.fin g) (fun s => FP.fin (y s)) bl
    rw [tf_any fun s hs => (hy s hs).2.2.1] at hbody
    simp only [Bool.false_eq_true, if_false] at hbody
    simp only [Kind.body] at h
    rw [hbody] at h
    cases h
  fin := fun _ _ => rfl

/-- The exact trust scores are at least 1/4 if the initial trust is. -/
theorem tfExact_low {l : List (S × V × X)} {g t0 : ℝ} (hg : 0 ≤ g) (h0 : 1 / 4 ≤ t0) (h1 : t0 < 1) (n : Nat) :
    ∀ s ∈ allSources l, 1 / 4 ≤ (tfExact l g t0 n).1 s := by
  cases n with
  | zero => exact fun _ _ => h0
  | succ n =>
    intro s hs
    have hr := tfExact_range (l := l) hg (by linarith) h1 n
    rw [tfExact_succ]
    obtain ⟨eb, et⟩ := tfStep_plain l g (tfExact l g t0 n)
    have hs' := (mem_allSources l).1 hs
    have hpos : (0 : ℝ) < (claimsOf l s).card := by exact_mod_cast (claimsOf_nonempty l hs').card_pos
    rw [et, le_div_iff₀ hpos, mul_comm, ← nsmul_eq_mul]
    refine Finset.card_nsmul_le_sum _ _ _ fun c _ => ?_
    rw [eb]
    have h2 : 0 ≤ g * ∑ s ∈ sourcesOf l c, -Real.log (1 - (tfExact l g t0 n).1 s) := by
      refine mul_nonneg hg (Finset.sum_nonneg fun s hs => ?_)
      obtain ⟨r0, r1⟩ := hr s ((mem_allSources l).2 (mem_sources_of_sourcesOf l hs))
      have := Real.log_nonpos (x := 1 - (tfExact l g t0 n).1 s) (by linarith) (by linarith)
      linarith
    have h3 := Real.exp_le_one_iff.2 (neg_nonpos.2 h2)
    rw [div_le_div_iff₀ (by norm_num) (by positivity)]
    linarith

theorem haze_mono (m : Measure) (l : List (S × V × X)) {E E' : ℝ} (h : E ≤ E') : haze m l E ≤ haze m l E' := by
  cases m
  case cosine => exact add_le_add le_rfl (by linarith)
  all_goals exact mul_le_mul_of_nonneg_left (by linarith) (Nat.cast_nonneg _)

/-- The computed distances of TruthFinder. -/
theorem tf_dists {l : List (S × V × X)} (hl : l ≠ []) (hS : (allSources l).card ≤ 2 ^ 46) {m : Measure}
    (hm : m = .cosine → (allSources l).card ≤ 2 ^ 40) (a b : Nat) {g t0 δ : ℝ} (hg : 0 ≤ g) (h0 : 1 / 4 ≤ t0) (h1 : t0 < 1) (hδ : 0 < δ) (K : Nat) :
    Follows.Dists (ω := ω) l (fun n => (tfExact l g t0 n).1) K (TfNear l a b g t0 δ) m (haze m l (tfErr a b g δ K)) := by
  rintro n hn t t' ⟨y, rfl, hy⟩ ⟨y', rfl, hy'⟩
  have b1 := tfErr_mono a b hg hδ hn.le
  have b2 := tfErr_mono a b hg hδ (Nat.succ_le_of_lt hn)
  by_cases hc : m = .cosine
  · subst hc
    exact TrustNear.cosine_real hl (hm rfl) (fun s hs => ⟨(hy s hs).1, (hy s hs).2.1, (hy s hs).2.2.1.le, (hy s hs).2.2.2.1.trans b1⟩)
      (fun s hs => ⟨(hy' s hs).1, (hy' s hs).2.1, (hy' s hs).2.2.1.le, (hy' s hs).2.2.2.1.trans b2⟩)
      (tfExact_low hg h0 h1 n) (tfExact_low hg h0 h1 (n + 1))
  · have e : haze m l (tfErr a b g δ K) = (allSources l).card * (((allSources l).card + 3) / 2 ^ 51 + 2 * tfErr a b g δ K) := by
      cases m
      case cosine => exact absurd rfl hc
      all_goals rfl
    rw [e]
    refine TrustNear.distance_real hl (hS.trans (by norm_num)) m hc ⟨y, rfl, fun s hs => ?_⟩ ⟨y', rfl, fun s hs => ?_⟩
    · exact ⟨(hy s hs).1, by linarith [(hy s hs).2.1], (hy s hs).2.2.1.le, (hy s hs).2.2.2.1.trans b1⟩
    · exact ⟨(hy' s hs).1, by linarith [(hy' s hs).2.1], (hy' s hs).2.2.1.le, (hy' s hs).2.2.2.1.trans b2⟩

theorem tfExact_eq (l : List (S × V × X)) (rho g t0 : ℝ) (n : Nat) : tfExact l g t0 n = tfAt l none rho g t0 n := by
  have : tfStep l (fun _ _ _ => 0) 0 g = tfStep l (impVal none) rho g := by
    funext p
    simp [tfStep, impVal]
  unfold tfExact tfAt
  rw [this]

/-- The change of the exact trust scores of TruthFinder in iteration `j + 1`. -/
theorem tfChange_eq (m : Measure) (l : List (S × V × X)) (g t0 : ℝ) (j : Nat) :
    stepChange m l (tfStep l (fun _ _ _ => 0) 0 g) ((fun _ => t0), fun _ => 0) j =
      distance m (allSources l) (tfExact l g t0 j).1 (tfExact l g t0 (j + 1)).1 := rfl

/-- **C114.** TruthFinder with a `ConvergenceIterator` of any measure (cosine, the default, for at most `2 ^ 40` sources), without implications, ends in double precision after the same
number `N` of iterations as in exact arithmetic, with nearly the same scores, if no exact distance is so close to the threshold that
rounding could decide the comparison. The bound `E` on the errors of the scores is that of C112, the exact trust scores have to
stay below `1 - δ`. -/
theorem C114_same (l : List (S × V × X)) (hl : l ≠ []) (am : Bool) (d : Dataset S V X D) (h : Dataset.mk' l am none = .ok d)
    (d' : Dataset S V X Ex) (h' : Dataset.mk' l am none = .ok d')
    (hS : (allSources l).card ≤ 2 ^ 46) (hC : (allClaims l).card ≤ 2 ^ 46)
    {a b : Nat} (ha : ∀ s, (claimsOf l s).card ≤ a) (hb : ∀ c, (sourcesOf l c).card ≤ b)
    (rho : D) (rho' g : ℝ) (hg0 : 0 ≤ g) (hg1 : g ≤ 1) (t0 : ℝ) (ht : IsDouble t0) (ht0 : 1 / 4 ≤ t0)
    {δ : ℝ} (hδ : 0 < δ) (ht1 : t0 ≤ 1 - δ) (m : Measure) (hm : m = .cosine → (allSources l).card ≤ 2 ^ 40) (th : ℝ) (lim lim' : Int) (pr pr' : Option Prior)
    (fuel fuel' : Nat) (clock : Nat → D) (clock' : Nat → Ex) (st : IterState D) (st' : IterState Ex) (r' : Result S V X Ex)
    (hr' : (⟨.truthFinder (fin rho') (fin g) (fin t0), .conv (some m) (fin th) lim', pr'⟩ : AlgCfg Ex).run d' fuel' clock' st' = .ok r')
    (N : Nat) (hN : r'.iterations = some N) (hlim : (N : Int) ≤ lim) (hfuel : N < fuel)
    (hx : ∀ j, 1 ≤ j → j ≤ N → ∀ s ∈ allSources l, (tfExact l g t0 j).1 s ≤ 1 - δ)
    (E : ℝ) (hE : E = (a + b + 23) / (2 ^ 50 * δ) * ∑ i ∈ Finset.range N, (g * b) ^ i) (hk : E ≤ 1 / 2)
    (hgap : ∀ j < N, haze m l E < |stepChange m l (tfStep l (fun _ _ _ => 0) 0 g) ((fun _ => t0), fun _ => 0) j - th|) :
    ∃ r, (⟨.truthFinder rho (FP.fin g) (FP.fin t0), .conv (some m) (FP.fin th) lim, pr⟩ : AlgCfg D).run d fuel clock st = .ok r ∧
      r.iterations = some N ∧ AbsClose l r (tfExact l g t0 N) E := by
  obtain rfl := ((mk'_ok_iff l one_ne_zero_fp am none d).1 h).1
  obtain rfl := mk'_ex h'
  rw [run_eq] at hr'
  cases he : (⟨.truthFinder (fin rho') (fin g) (fin t0), .conv (some m) (fin th) lim', pr'⟩ : AlgCfg Ex).exec (matsOf l none) fuel' st' with
  | error e => rw [he] at hr'; cases hr'
  | ok out =>
    rw [he] at hr'
    cases hr'
    obtain ⟨k, hk', h1, h2⟩ := exact_ended (tf_implements none _ pr' rho' g t0 (by linarith) (by linarith)) hl rfl (fun q => .inr rfl) he
    have e : out.iterations = N := by simpa [resultOf] using hN
    obtain rfl : k + 1 = N := by omega
    have conv : ∀ j, stepChange m l (tfStep l (impVal none) rho' g) ((fun _ => t0), fun _ => 0) j =
        distance m (allSources l) (tfExact l g t0 j).1 (tfExact l g t0 (j + 1)).1 := by
      intro j
      rw [tfExact_eq l rho', tfExact_eq l rho']
      rfl
    rw [conv] at h1
    have hS' := hS
    have hC' := hC
    rw [← length_sources] at hS'
    rw [← length_claims] at hC'
    have hEe : E = tfErr a b g δ (k + 1) := hE
    have H := tf_follows hS' hC' ha hb rho hg0 hg1 ht ht0 hδ ht1 (hEe ▸ hk) hx (.conv (some m) (FP.fin th) lim) pr
    rw [← hEe] at H
    have hD := tf_dists (ω := ω) hl hS hm a b hg0 ht0 (by linarith : t0 < 1) hδ (k + 1)
    rw [← hEe] at hD
    have h2' : ∀ j < k, th ≤ distance m (allSources l) (tfExact l g t0 j).1 (tfExact l g t0 (j + 1)).1 := fun j hj => by
      rw [← conv]; exact h2 j hj
    have hgap' : ∀ j ≤ k, haze m l E < |distance m (allSources l) (tfExact l g t0 j).1 (tfExact l g t0 (j + 1)).1 - th| := fun j hj =>
      hgap j (by omega)
    obtain ⟨r, hr, hit⟩ := H.same hl hD (th := th) (lim := lim) rfl (N := k) le_rfl h1 h2' hgap' (by omega) hfuel st
    have hR : (⟨.truthFinder rho (FP.fin g) (FP.fin t0), .conv (some m) (FP.fin th) lim, pr⟩ : AlgCfg D).run (datasetOf l none) fuel clock st =
        .ok (resultOf l r.trust r.belief (clock 1 -. clock 0) (some r.iterations)) := by rw [run_eq, hr]
    refine ⟨_, hR, by simp [resultOf, hit], ?_⟩
    rw [hE]
    exact C112_run l am _ h hS hC ha hb rho g hg0 hg1 t0 ht ht0 hδ ht1 _ pr fuel clock st _ hR (k + 1) (by simp [resultOf, hit])
      (fun j h1 h2 => hx j h1 h2.le) (by rw [← hE]; exact hk)

/-- **C114.** Without any assumption on the distances: if the run in double precision ends after `N` iterations, then the exact
distance of the last two vectors of trust scores is below the threshold and no earlier one is, up to the stated rounding error; and it
does end, at the latest after the first iteration whose exact distance is below the threshold by more than that error. -/
theorem C114_any (l : List (S × V × X)) (hl : l ≠ []) (am : Bool) (d : Dataset S V X D) (h : Dataset.mk' l am none = .ok d)
    (hS : (allSources l).card ≤ 2 ^ 46) (hC : (allClaims l).card ≤ 2 ^ 46)
    {a b : Nat} (ha : ∀ s, (claimsOf l s).card ≤ a) (hb : ∀ c, (sourcesOf l c).card ≤ b)
    (rho : D) (g : ℝ) (hg0 : 0 ≤ g) (hg1 : g ≤ 1) (t0 : ℝ) (ht : IsDouble t0) (ht0 : 1 / 4 ≤ t0)
    {δ : ℝ} (hδ : 0 < δ) (ht1 : t0 ≤ 1 - δ) (m : Measure) (hm : m = .cosine → (allSources l).card ≤ 2 ^ 40) (th : ℝ) (lim : Int) (pr : Option Prior)
    (fuel : Nat) (clock : Nat → D) (st : IterState D) (N : Nat)
    (hx : ∀ j, 1 ≤ j → j ≤ N → ∀ s ∈ allSources l, (tfExact l g t0 j).1 s ≤ 1 - δ)
    (E : ℝ) (hE : E = (a + b + 23) / (2 ^ 50 * δ) * ∑ i ∈ Finset.range N, (g * b) ^ i) (hk : E ≤ 1 / 2) :
    (∀ r, (⟨.truthFinder rho (FP.fin g) (FP.fin t0), .conv (some m) (FP.fin th) lim, pr⟩ : AlgCfg D).run d fuel clock st = .ok r →
      r.iterations = some N → 1 ≤ N ∧
      stepChange m l (tfStep l (fun _ _ _ => 0) 0 g) ((fun _ => t0), fun _ => 0) (N - 1) < th + haze m l E ∧
      ∀ j, j + 1 < N → th - haze m l E ≤ stepChange m l (tfStep l (fun _ _ _ => 0) 0 g) ((fun _ => t0), fun _ => 0) j) ∧
    (1 ≤ N → stepChange m l (tfStep l (fun _ _ _ => 0) 0 g) ((fun _ => t0), fun _ => 0) (N - 1) < th - haze m l E →
      (N : Int) ≤ lim → N < fuel →
      ∃ r k, (⟨.truthFinder rho (FP.fin g) (FP.fin t0), .conv (some m) (FP.fin th) lim, pr⟩ : AlgCfg D).run d fuel clock st = .ok r ∧
        r.iterations = some k ∧ k ≤ N) := by
  obtain rfl := ((mk'_ok_iff l one_ne_zero_fp am none d).1 h).1
  have hS' := hS
  have hC' := hC
  rw [← length_sources] at hS'
  rw [← length_claims] at hC'
  have hEe : E = tfErr a b g δ N := hE
  have H := tf_follows hS' hC' ha hb rho hg0 hg1 ht ht0 hδ ht1 (hEe ▸ hk) hx (.conv (some m) (FP.fin th) lim) pr
  rw [← hEe] at H
  have hD := tf_dists (ω := ω) hl hS hm a b hg0 ht0 (by linarith : t0 < 1) hδ N
  rw [← hEe] at hD
  constructor
  · intro r hr hN
    rw [run_eq] at hr
    cases he : (⟨.truthFinder rho (FP.fin g) (FP.fin t0), .conv (some m) (FP.fin th) lim, pr⟩ : AlgCfg D).exec (matsOf l none) fuel st with
    | error e => rw [he] at hr; cases hr
    | ok out =>
      rw [he] at hr
      cases hr
      have e : out.iterations = N := by simpa [resultOf] using hN
      obtain ⟨k, hk, h1, h2⟩ := H.ended hD (th := th) (lim := lim) rfl he e.le
      obtain rfl : k + 1 = N := by omega
      exact ⟨by omega, h1, fun j hj => h2 j (by omega)⟩
  · intro hN hd hlim hfuel
    obtain ⟨k, rfl⟩ : ∃ k, N = k + 1 := ⟨N - 1, by omega⟩
    rw [Nat.add_sub_cancel, tfChange_eq] at hd
    have hd' : distance m (allSources l) ((fun n => (tfExact l g t0 n).1) k) ((fun n => (tfExact l g t0 n).1) (k + 1)) < th - haze m l E := hd
    clear hE hEe hk hx hd
    have hlim' : (k : Int) < lim := by omega
    obtain ⟨r, hr, hle⟩ := H.ends (m := m) (lim := lim) (th := th) (k := k) hl hD rfl (Nat.le_refl (k + 1)) hd' hlim' hfuel st
    exact ⟨_, r.iterations, by rw [run_eq, hr], rfl, hle⟩

/-- **C114.** If little is amplified (`g b < 1`), TruthFinder in double precision does converge: it ends within `N + 1` iterations, where `N` is any
number with `|S| * (g b) ^ N * max (-log (1 - t0)) (log 2 / (1 - g b)) < th - haze`, if its limit allows them. The conditions on
`δ` and the bound `E` on all errors are those of C112. -/
theorem C114_settles (l : List (S × V × X)) (hl : l ≠ []) (am : Bool) (d : Dataset S V X D) (h : Dataset.mk' l am none = .ok d)
    (hS : (allSources l).card ≤ 2 ^ 46) (hC : (allClaims l).card ≤ 2 ^ 46)
    {a b : Nat} (ha : ∀ s, (claimsOf l s).card ≤ a) (hb : ∀ c, (sourcesOf l c).card ≤ b)
    (rho : D) (g : ℝ) (hg0 : 0 ≤ g) (hg1 : g ≤ 1) (t0 : ℝ) (ht : IsDouble t0) (ht0 : 1 / 4 ≤ t0)
    {δ : ℝ} (hδ : 0 < δ) (ht1 : t0 ≤ 1 - δ) (hgb : g * b < 1) (hδ1 : δ ^ (1 - g * b) ≤ 1 / 2)
    (E : ℝ) (hE : E = (a + b + 23) / (2 ^ 50 * δ * (1 - g * b))) (hk : E ≤ 1 / 2)
    (m : Measure) (hm : m = .cosine → (allSources l).card ≤ 2 ^ 40) (th : ℝ) (N : Nat)
    (hN : (allSources l).card * ((g * b) ^ N * startGap (g * b) t0 t0) < th - haze m l E)
    (hN2 : m = .cosine → (g * b) ^ N * startGap (g * b) t0 t0 ≤ 1 / 8) (lim : Int) (hlim : ((N + 1 : Nat) : Int) ≤ lim)
    (pr : Option Prior) (fuel : Nat) (hfuel : N + 1 < fuel) (clock : Nat → D) (st : IterState D) :
    ∃ r k, (⟨.truthFinder rho (FP.fin g) (FP.fin t0), .conv (some m) (FP.fin th) lim, pr⟩ : AlgCfg D).run d fuel clock st = .ok r ∧
      r.iterations = some k ∧ k ≤ N + 1 ∧ AbsClose l r (tfExact l g t0 k) E := by
  have hle := tfErr_le a b hg0 hδ hgb (N + 1)
  have amp : ∀ c ∈ allClaims l, amplification l (none : Option (V → X → X → Option ℝ)) 0 g c ≤ g * b := by
    intro c _
    unfold amplification
    rw [abs_zero, zero_mul, add_zero]
    exact mul_le_mul_of_nonneg_left (by exact_mod_cast hb c) hg0
  have hch : distance m (allSources l) (tfExact l g t0 N).1 (tfExact l g t0 (N + 1)).1 ≤
      (allSources l).card * ((g * b) ^ N * startGap (g * b) t0 t0) := by
    by_cases hc : m = .cosine
    · have hM : 0 ≤ startGap (g * b) t0 t0 :=
        (div_nonneg (Real.log_nonneg (by norm_num)) (by linarith)).trans (le_max_right _ _)
      have hgb0 : 0 ≤ g * b := by positivity
      refine distance_le (allSources_nonempty hl) (lo := 1 / 4) (by norm_num) (by positivity) (tfExact_low hg0 ht0 (by linarith) N)
        (tfExact_low hg0 ht0 (by linarith) (N + 1)) (fun s hs => ?_) ((hN2 hc).trans (by norm_num)) m
      have hs' := (mem_allSources l).1 hs
      rw [tfExact_eq l 0, tfExact_eq l 0]
      exact (trust_tau (tf_inv (by linarith) (by linarith) N) (tf_inv (by linarith) (by linarith) (N + 1)) hs').trans
        ((tf_forgets (f := none) (rho := 0) hg0 amp hgb0 hgb (by linarith) (by linarith) (by linarith) (by linarith) 1 N).1 s hs')
    · have h := tf_change (f := none) (rho := 0) hl hg0 amp hgb (by linarith : 0 ≤ t0) (by linarith : t0 < 1) hc N
      rwa [← tfExact_eq, ← tfExact_eq] at h
  obtain ⟨r, k, h1, h2, h3⟩ := (C114_any l hl am d h hS hC ha hb rho g hg0 hg1 t0 ht ht0 hδ ht1 m hm th lim pr fuel clock st (N + 1)
    (fun j _ _ => tfExact_below hb hg0 (by linarith) hδ ht1 hδ1 j) _ rfl (hle.trans (hE ▸ hk))).2 (by omega) (by
      rw [Nat.add_sub_cancel, tfChange_eq]
      refine hch.trans_lt (hN.trans_le ?_)
      rw [← hE] at hle
      have := haze_mono m l hle
      linarith) hlim hfuel
  refine ⟨r, k, h1, h2, h3, ?_⟩
  rw [hE]
  exact C112_always l am d h hS hC ha hb rho g hg0 hg1 t0 ht ht0 hδ ht1 hgb hδ1 (hE ▸ hk) _ pr fuel clock st r h1 k h2

/-- C114 applies to a dataset with a conflict: with dampening 1/4, initial trust 1/2 and threshold 1/1000, TruthFinder with the cosine measure in doubles ends within 21 iterations. -/
example (clock : Nat → D) : ∃ (d : Dataset Nat Nat Nat D) (r : Result Nat Nat Nat D) (k : Nat),
    Dataset.mk' [(0, 0, 1), (1, 0, 2), (1, 1, 5), (2, 0, 2)] false none = .ok d ∧
    (⟨.truthFinder (Arith.lit 1 2) (FP.fin (1 / 4)) (FP.fin (1 / 2)), .conv (some .cosine) (FP.fin (1 / 1000)) 50, none⟩ : AlgCfg D).run d 51 clock = .ok r ∧
    r.iterations = some k ∧ k ≤ 21 ∧ AbsClose [(0, 0, 1), (1, 0, 2), (1, 1, 5), (2, 0, 2)] r (tfExact [(0, 0, 1), (1, 0, 2), (1, 1, 5), (2, 0, 2)] (1 / 4) (1 / 2) k) (27 / 2 ^ 47) := by
  have hd := (mk'_ok_iff [(0, 0, 1), (1, 0, 2), (1, 1, 5), (2, 0, 2)] (one_ne_zero_fp (R := .binary64 ω)) false none _).2
    ⟨rfl, .inr (by simp [NoRepeats]), by simp [optImpBad]⟩
  have hdbl : IsDouble (1 / 2) := ⟨1, -1, by norm_num, by norm_num, by norm_num, by norm_num⟩
  have hsq : ((1 : ℝ) / 4) ^ ((1 : ℝ) - 1 / 4 * (2 : Nat)) ≤ 1 / 2 := by
    have e : ((1 : ℝ) / 4) = (1 / 2) ^ (2 : ℝ) := by
      rw [Real.rpow_two]; norm_num
    rw [show ((1 : ℝ) - 1 / 4 * (2 : Nat)) = 1 / 2 by norm_num, e, ← Real.rpow_mul (by norm_num)]
    norm_num
  have ha : ∀ s, (claimsOf [((0 : Nat), (0 : Nat), (1 : Nat)), (1, 0, 2), (1, 1, 5), (2, 0, 2)] s).card ≤ 2 := by
    intro s
    by_cases hs : s ∈ sources [((0 : Nat), (0 : Nat), (1 : Nat)), (1, 0, 2), (1, 1, 5), (2, 0, 2)]
    · exact (by decide : ∀ s ∈ sources [((0 : Nat), (0 : Nat), (1 : Nat)), (1, 0, 2), (1, 1, 5), (2, 0, 2)],
        (claimsOf [((0 : Nat), (0 : Nat), (1 : Nat)), (1, 0, 2), (1, 1, 5), (2, 0, 2)] s).card ≤ 2) s hs
    · rw [Finset.card_eq_zero.2]
      · norm_num
      · by_contra hne
        obtain ⟨c, hc⟩ := Finset.nonempty_iff_ne_empty.2 hne
        exact hs (mem_sources_of_sourcesOf _ ((mem_sourcesOf _).2 ((mem_claimsOf _).1 hc)))
  have hb : ∀ c, (sourcesOf [((0 : Nat), (0 : Nat), (1 : Nat)), (1, 0, 2), (1, 1, 5), (2, 0, 2)] c).card ≤ 2 := by
    intro c
    by_cases hc : c ∈ claims [((0 : Nat), (0 : Nat), (1 : Nat)), (1, 0, 2), (1, 1, 5), (2, 0, 2)]
    · exact (by decide : ∀ c ∈ claims [((0 : Nat), (0 : Nat), (1 : Nat)), (1, 0, 2), (1, 1, 5), (2, 0, 2)],
        (sourcesOf [((0 : Nat), (0 : Nat), (1 : Nat)), (1, 0, 2), (1, 1, 5), (2, 0, 2)] c).card ≤ 2) c hc
    · rw [Finset.card_eq_zero.2]
      · norm_num
      · by_contra hne
        obtain ⟨s, hs⟩ := Finset.nonempty_iff_ne_empty.2 hne
        exact hc (mem_claims_of_claimsOf _ ((mem_claimsOf _).2 ((mem_sourcesOf _).1 hs)))
  have e : (((2 : Nat) : ℝ) + ((2 : Nat) : ℝ) + 23) / (2 ^ 50 * (1 / 4) * (1 - 1 / 4 * ((2 : Nat) : ℝ))) = 27 / 2 ^ 47 := by norm_num
  have c3 : (allSources [((0 : Nat), (0 : Nat), (1 : Nat)), (1, 0, 2), (1, 1, 5), (2, 0, 2)]).card = 3 := by decide
  have hgap : startGap (1 / 4 * ((2 : Nat) : ℝ)) (1 / 2) (1 / 2) ≤ 3 / 2 := by
    have hl := Real.log_two_lt_d9
    unfold startGap
    rw [show (1 : ℝ) - 1 / 2 = 2⁻¹ by norm_num, Real.log_inv]
    refine max_le (max_le ?_ ?_) ?_
    · linarith
    · linarith
    · rw [div_le_iff₀ (by norm_num)]
      norm_num
      linarith
  obtain ⟨r, k, h1, h2, h3, h4⟩ := C114_settles _ (by simp) _ _ hd (by decide) (by decide) ha hb (Arith.lit 1 2) (1 / 4) (by norm_num) (by norm_num)
    (1 / 2) hdbl (by norm_num) (δ := 1 / 4) (by norm_num) (by norm_num) (by norm_num) hsq _ rfl (by norm_num) .cosine (fun _ => by decide) (1 / 1000) 20
    (by
      unfold haze
      simp only []
      rw [c3]
      refine (mul_le_mul_of_nonneg_left (mul_le_mul_of_nonneg_left hgap (by positivity)) (by positivity)).trans_lt ?_
      norm_num) (fun _ => (mul_le_mul_of_nonneg_left hgap (by positivity)).trans (by norm_num)) 50 (by norm_num) none 51 (by norm_num) clock {}
  refine ⟨_, r, k, hd, h1, h2, h3, ?_⟩
  rwa [e] at h4

end TD
