import Verif.Spec.Objective
import Verif.Props.Settle
/-!
# C89: CRH lowers its objective

Exact arithmetic; datasets in which every source makes a claim about every variable.
-/

namespace TD
open Spec Ex Filter Topology
attribute [-instance] instBEqProd

variable {S V X : Type} [DecidableEq S] [DecidableEq V] [DecidableEq X] {l : List (S × V × X)}

/-- 1 if the source makes the claim. -/
noncomputable def hit (l : List (S × V × X)) (s : S) (d : V × X) : ℝ := if d ∈ claimsOf l s then 1 else 0

theorem loss_complete (hC : EveryoneClaims l) {s : S} (hs : s ∈ allSources l) (b : V × X → ℝ) :
    loss l b s = ∑ d ∈ allClaims l, (b d - hit l s d) ^ 2 := by
  unfold loss
  rw [Finset.sum_comm' (t' := allClaims l) (s' := fun d => (claimsOf l s).filter fun c => c.1 = d.1)]
  · refine Finset.sum_congr rfl fun d hd => ?_
    obtain ⟨x, hx⟩ := hC s hs d hd
    have e : ((claimsOf l s).filter fun c => c.1 = d.1) = {(d.1, x)} := by
      ext c
      rw [Finset.mem_filter, mem_claimsOf, Finset.mem_singleton]
      constructor
      · rintro ⟨h1, h2⟩
        have := recorded_unique l h1 hx rfl h2
        exact (Prod.mk.inj this).2
      · rintro rfl
        exact ⟨hx, rfl⟩
    rw [e, Finset.sum_singleton]
    unfold hit
    have : ((d.1, x) = d) ↔ d ∈ claimsOf l s := by
      rw [mem_claimsOf]
      constructor
      · intro h; rw [← h]; exact hx
      · intro h
        exact (Prod.mk.inj (recorded_unique l hx h rfl rfl)).2
    simp only [this]
  · intro c d
    simp only [rivals, Finset.mem_filter]
    constructor
    · rintro ⟨h1, h2, h3⟩; exact ⟨⟨h1, h3⟩, h2⟩
    · rintro ⟨⟨h1, h3⟩, h2⟩; exact ⟨h1, h2, h3⟩

theorem hit_sum (t : S → ℝ) (d : V × X) : ∑ s ∈ allSources l, t s * hit l s d = ∑ s ∈ sourcesOf l d, t s := by
  have e : sourcesOf l d = (allSources l).filter fun s => d ∈ claimsOf l s := by
    ext s
    rw [mem_sourcesOf, Finset.mem_filter, mem_claimsOf]
    refine ⟨fun h => ⟨(mem_allSources l).2 (mem_sources_of_sourcesOf l ((mem_sourcesOf l).2 h)), h⟩, And.right⟩
  rw [e, Finset.sum_filter]
  refine Finset.sum_congr rfl fun s _ => ?_
  unfold hit
  split <;> simp

/-- The weighted mean minimises the objective. -/
theorem objective_belief (hC : EveryoneClaims l) (eps : ℝ) {t : S → ℝ} (hT : ∑ r ∈ allSources l, t r ≠ 0) (b : V × X → ℝ) :
    objective l eps t b = objective l eps t (fun c => (∑ s ∈ sourcesOf l c, t s) / ∑ r ∈ allSources l, t r) +
      (∑ r ∈ allSources l, t r) * ∑ c ∈ allClaims l, (b c - (∑ s ∈ sourcesOf l c, t s) / ∑ r ∈ allSources l, t r) ^ 2 := by
  have key : ∀ b : V × X → ℝ, objective l eps t b = eps * (∑ r ∈ allSources l, t r) + ∑ d ∈ allClaims l,
      ((∑ r ∈ allSources l, t r) * b d ^ 2 - 2 * b d * (∑ s ∈ sourcesOf l d, t s) + ∑ s ∈ sourcesOf l d, t s) := by
    intro b
    unfold objective
    have e1 : ∀ s ∈ allSources l, t s * (eps + loss l b s) = eps * t s + ∑ d ∈ allClaims l, t s * (b d - hit l s d) ^ 2 := by
      intro s hs
      rw [loss_complete hC hs, ← Finset.mul_sum]; ring
    rw [Finset.sum_congr rfl e1, Finset.sum_add_distrib, ← Finset.mul_sum, Finset.sum_comm]
    congr 1
    refine Finset.sum_congr rfl fun d _ => ?_
    have e2 : ∀ s, t s * (b d - hit l s d) ^ 2 = t s * b d ^ 2 - 2 * b d * (t s * hit l s d) + t s * hit l s d := by
      intro s
      unfold hit
      split <;> ring
    simp only [e2, Finset.sum_add_distrib, Finset.sum_sub_distrib, ← Finset.mul_sum, ← Finset.sum_mul, hit_sum]
  rw [key, key, add_assoc]
  congr 1
  rw [Finset.mul_sum, ← Finset.sum_add_distrib]
  refine Finset.sum_congr rfl fun d _ => ?_
  generalize ∑ r ∈ allSources l, t r = T at *
  field_simp
  ring

/-- The weights of CRH. -/
noncomputable def crhW (l : List (S × V × X)) (eps : ℝ) (b : V × X → ℝ) (s : S) : ℝ :=
  eps - Real.log ((eps + loss l b s) / ∑ r ∈ allSources l, (eps + loss l b r))

theorem crhW_admissible (hl : l ≠ []) {eps : ℝ} (he : 0 < eps) (b : V × X → ℝ) : Admissible l eps (crhW l eps b) := by
  unfold Admissible
  have e : ∀ s ∈ allSources l, Real.exp (-(crhW l eps b s - eps)) = (eps + loss l b s) / ∑ r ∈ allSources l, (eps + loss l b r) := by
    intro s hs
    unfold crhW
    rw [show ∀ x : ℝ, -(eps - x - eps) = x by intro x; ring, Real.exp_log (crhT_ge hl he b ((mem_allSources l).1 hs)).1]
  rw [Finset.sum_congr rfl e, ← Finset.sum_div, div_self]
  exact (Finset.sum_pos (fun r _ => by linarith [loss_nonneg (l := l) b r]) (allSources_nonempty hl)).ne'

/-- They minimise the objective under the constraint. -/
theorem objective_trust (hl : l ≠ []) {eps : ℝ} (he : 0 < eps) (b : V × X → ℝ) {t : S → ℝ} (ht : Admissible l eps t) :
    objective l eps (crhW l eps b) b ≤ objective l eps t b := by
  unfold objective
  have hA : 0 < ∑ r ∈ allSources l, (eps + loss l b r) :=
    Finset.sum_pos (fun r _ => by linarith [loss_nonneg (l := l) b r]) (allSources_nonempty hl)
  have key : ∀ s ∈ allSources l, crhW l eps b s * (eps + loss l b s) ≤ t s * (eps + loss l b s) +
      ((∑ r ∈ allSources l, (eps + loss l b r)) * Real.exp (-(t s - eps)) - (eps + loss l b s)) := by
    intro s _
    have ha : 0 < eps + loss l b s := by linarith [loss_nonneg (l := l) b s]
    unfold crhW
    generalize eps + loss l b s = a at *
    generalize ∑ r ∈ allSources l, (eps + loss l b r) = A at *
    have hq := Real.exp_pos (-(t s - eps))
    have h := Real.log_le_sub_one_of_pos (x := Real.exp (-(t s - eps)) / (a / A)) (by positivity)
    rw [Real.log_div hq.ne' (by positivity), Real.log_exp] at h
    have h2 := mul_le_mul_of_nonneg_left h ha.le
    have h3 : a * (Real.exp (-(t s - eps)) / (a / A) - 1) = A * Real.exp (-(t s - eps)) - a := by field_simp
    rw [h3] at h2
    linarith
  have := Finset.sum_le_sum key
  rw [Finset.sum_add_distrib, Finset.sum_sub_distrib, ← Finset.mul_sum, ht, mul_one, sub_self, add_zero] at this
  exact this

/-! ### The iteration -/

/-- Scores after `k` iterations of CRH. -/
noncomputable abbrev crhAt (l : List (S × V × X)) (eps : ℝ) (k : Nat) : Scores S V X := (crhStep l eps)^[k] (crhInit l)

theorem crh_succ (eps : ℝ) (k : Nat) : crhAt l eps (k + 1) = crhStep l eps (crhAt l eps k) := Function.iterate_succ_apply' _ _ _

theorem crh_trust (eps : ℝ) (k : Nat) : (crhAt l eps (k + 1)).1 = crhW l eps (crhAt l eps k).2 := by
  rw [crh_succ]; rfl

theorem crhAt_belief (eps : ℝ) (k : Nat) : (crhAt l eps (k + 1)).2 = fun c => (∑ s ∈ sourcesOf l c, (crhAt l eps (k + 1)).1 s) /
    ∑ r ∈ allSources l, (crhAt l eps (k + 1)).1 r := by
  rw [crh_succ]; rfl

theorem crh_total (hl : l ≠ []) {eps : ℝ} (he : 0 < eps) (k : Nat) : eps ≤ ∑ r ∈ allSources l, (crhAt l eps (k + 1)).1 r := by
  obtain ⟨s, hs⟩ := allSources_nonempty hl
  have h : ∀ r ∈ allSources l, eps ≤ (crhAt l eps (k + 1)).1 r := by
    intro r hr
    rw [crh_succ]
    exact crhT_ge' hl he _ ((mem_allSources l).1 hr)
  exact (h s hs).trans (Finset.single_le_sum (f := fun r => (crhAt l eps (k + 1)).1 r) (fun r hr => he.le.trans (h r hr)) hs)

theorem crh_descent (hC : EveryoneClaims l) (hl : l ≠ []) {eps : ℝ} (he : 0 < eps) (k : Nat) :
    objective l eps (crhAt l eps (k + 2)).1 (crhAt l eps (k + 2)).2 +
      eps * ∑ c ∈ allClaims l, ((crhAt l eps (k + 1)).2 c - (crhAt l eps (k + 2)).2 c) ^ 2 ≤
    objective l eps (crhAt l eps (k + 1)).1 (crhAt l eps (k + 1)).2 := by
  have hT := crh_total (l := l) hl he (k + 1)
  have h1 := objective_trust hl he (crhAt l eps (k + 1)).2 (t := (crhAt l eps (k + 1)).1)
    (by rw [crh_trust]; exact crhW_admissible hl he _)
  rw [← crh_trust] at h1
  have h2 := objective_belief hC eps (t := (crhAt l eps (k + 1 + 1)).1) (by linarith) (crhAt l eps (k + 1)).2
  have e := crhAt_belief (l := l) eps (k + 1)
  simp only [e]
  have hq : 0 ≤ ∑ c ∈ allClaims l, ((crhAt l eps (k + 1)).2 c - (∑ s ∈ sourcesOf l c, (crhAt l eps (k + 1 + 1)).1 s) /
    ∑ r ∈ allSources l, (crhAt l eps (k + 1 + 1)).1 r) ^ 2 := Finset.sum_nonneg fun _ _ => sq_nonneg _
  have h3 := mul_le_mul_of_nonneg_right hT hq
  show objective l eps (crhAt l eps (k + 1 + 1)).1 _ + eps * ∑ c ∈ allClaims l, ((crhAt l eps (k + 1)).2 c -
    (∑ s ∈ sourcesOf l c, (crhAt l eps (k + 1 + 1)).1 s) / ∑ r ∈ allSources l, (crhAt l eps (k + 1 + 1)).1 r) ^ 2 ≤ _
  linarith

theorem crh_objective_anti (hC : EveryoneClaims l) (hl : l ≠ []) {eps : ℝ} (he : 0 < eps) {k n : Nat} (h : k ≤ n) :
    objective l eps (crhAt l eps (n + 1)).1 (crhAt l eps (n + 1)).2 ≤ objective l eps (crhAt l eps (k + 1)).1 (crhAt l eps (k + 1)).2 :=
  antitone_nat_of_succ_le (f := fun n => objective l eps (crhAt l eps (n + 1)).1 (crhAt l eps (n + 1)).2)
    (fun n => by
      have := crh_descent hC hl he n
      have hq : 0 ≤ eps * ∑ c ∈ allClaims l, ((crhAt l eps (n + 1)).2 c - (crhAt l eps (n + 2)).2 c) ^ 2 :=
        mul_nonneg he.le (Finset.sum_nonneg fun _ _ => sq_nonneg _)
      linarith) h

/-- **C89.** On a complete dataset CRH never raises its objective: of two successful runs (with whatever
iterators) with at least one iteration each, the one with more iterations has the smaller or
the same weighted loss. -/
theorem C89_objective {f : Option (V → X → X → Option Ex)} {am : Bool} {d : Dataset S V X Ex} (hd : Dataset.mk' l am f = .ok d)
    (hC : EveryoneClaims l) (hl : l ≠ []) {eps : ℝ} (he : 0 < eps) {pr pr' : Option Prior}
    {it it' : IterCfg Ex} {fuel fuel' : Nat} {clock clock' : Nat → Ex} {st st' : IterState Ex} {r r' : Result S V X Ex}
    (hr : AlgCfg.run ⟨.crh (fin eps), it, pr⟩ d fuel clock st = .ok r)
    (hr' : AlgCfg.run ⟨.crh (fin eps), it', pr'⟩ d fuel' clock' st' = .ok r')
    {n n' : Nat} (hn : r.iterations = some n) (hn' : r'.iterations = some n') (h1 : 1 ≤ n) (hle : n ≤ n') :
    ∃ p p' : Scores S V X, Reports l r p ∧ Reports l r' p' ∧ objective l eps p'.1 p'.2 ≤ objective l eps p.1 p.2 := by
  obtain rfl := mk'_ex hd
  obtain ⟨m, e, rep⟩ := (crh_implements hl f it pr eps he).run_reports (by simp) hr
  obtain ⟨m', e', rep'⟩ := (crh_implements hl f it' pr' eps he).run_reports (by simp) hr'
  rw [e] at hn
  rw [e'] at hn'
  cases hn
  cases hn'
  obtain ⟨k, rfl⟩ : ∃ k, n = k + 1 := ⟨n - 1, by omega⟩
  obtain ⟨k', rfl⟩ : ∃ k', n' = k' + 1 := ⟨n' - 1, by omega⟩
  exact ⟨_, _, rep, rep', crh_objective_anti hC hl he (by omega)⟩

/-- **C89.** On a complete dataset the reported beliefs are the best ones for the reported trust, and the
trust satisfies the constraint. -/
theorem C89_best {f : Option (V → X → X → Option Ex)} {am : Bool} {d : Dataset S V X Ex} (hd : Dataset.mk' l am f = .ok d)
    (hC : EveryoneClaims l) (hl : l ≠ []) {eps : ℝ} (he : 0 < eps) {pr : Option Prior}
    {it : IterCfg Ex} {fuel : Nat} {clock : Nat → Ex} {st : IterState Ex} {r : Result S V X Ex}
    (hr : AlgCfg.run ⟨.crh (fin eps), it, pr⟩ d fuel clock st = .ok r) (hn : r.iterations ≠ some 0) :
    ∃ p : Scores S V X, Reports l r p ∧ Admissible l eps p.1 ∧ (∀ b : V × X → ℝ, objective l eps p.1 p.2 ≤ objective l eps p.1 b) ∧
      ∀ b : V × X → ℝ, (∃ c ∈ allClaims l, b c ≠ p.2 c) → objective l eps p.1 p.2 < objective l eps p.1 b := by
  obtain rfl := mk'_ex hd
  obtain ⟨m, e, rep⟩ := (crh_implements hl f it pr eps he).run_reports (by simp) hr
  obtain ⟨k, rfl⟩ : ∃ k, m = k + 1 := ⟨m - 1, by
    rcases m with _ | m
    · exact absurd e hn
    · rfl⟩
  have hT := crh_total (l := l) hl he k
  have key := objective_belief hC eps (t := (crhAt l eps (k + 1)).1) (by linarith)
  rw [← crhAt_belief] at key
  refine ⟨_, rep, by rw [crh_trust]; exact crhW_admissible hl he _, fun b => ?_, fun b ⟨c, hc, hne⟩ => ?_⟩
  · rw [key b]
    have : 0 ≤ ∑ c ∈ allClaims l, (b c - (∑ s ∈ sourcesOf l c, (crhAt l eps (k + 1)).1 s) /
      ∑ r ∈ allSources l, (crhAt l eps (k + 1)).1 r) ^ 2 := Finset.sum_nonneg fun _ _ => sq_nonneg _
    nlinarith
  · rw [key b]
    have : 0 < ∑ c ∈ allClaims l, (b c - (∑ s ∈ sourcesOf l c, (crhAt l eps (k + 1)).1 s) /
        ∑ r ∈ allSources l, (crhAt l eps (k + 1)).1 r) ^ 2 := by
      refine Finset.sum_pos' (fun _ _ => sq_nonneg _) ⟨c, hc, ?_⟩
      rw [crhAt_belief] at hne
      exact lt_of_le_of_ne (sq_nonneg _) (Ne.symm (pow_ne_zero 2 (sub_ne_zero.2 hne)))
    nlinarith [mul_pos (he.trans_le hT) this]

/-! ### It settles -/

theorem log_lipschitz {x y m : ℝ} (hm : 0 < m) (hx : m ≤ x) (hy : m ≤ y) : |Real.log x - Real.log y| ≤ |x - y| / m := by
  have key : ∀ x y : ℝ, m ≤ x → m ≤ y → Real.log x - Real.log y ≤ |x - y| / m := by
    intro x y hx hy
    have hx' := hm.trans_le hx
    have hy' := hm.trans_le hy
    rw [← Real.log_div hx'.ne' hy'.ne']
    refine (Real.log_le_sub_one_of_pos (div_pos hx' hy')).trans ?_
    rw [show x / y - 1 = (x - y) / y by field_simp]
    calc (x - y) / y ≤ |x - y| / y := div_le_div_of_nonneg_right (le_abs_self _) hy'.le
      _ ≤ |x - y| / m := div_le_div_of_nonneg_left (abs_nonneg _) hm hy
  rw [abs_le]
  have h1 := key x y hx hy
  have h2 := key y x hy hx
  rw [abs_sub_comm] at h2
  constructor <;> linarith

theorem hit_range (s : S) (d : V × X) : 0 ≤ hit l s d ∧ hit l s d ≤ 1 := by
  unfold hit
  split <;> norm_num

theorem loss_le (hC : EveryoneClaims l) {s : S} (hs : s ∈ allSources l) {b : V × X → ℝ} (hb : ∀ c ∈ allClaims l, 0 ≤ b c ∧ b c ≤ 1) :
    loss l b s ≤ (allClaims l).card := by
  rw [loss_complete hC hs]
  have : ∑ d ∈ allClaims l, (b d - hit l s d) ^ 2 ≤ ∑ _d ∈ allClaims l, (1 : ℝ) := by
    refine Finset.sum_le_sum fun d hd => ?_
    have h1 := hit_range (l := l) s d
    have h2 := hb d hd
    nlinarith
  simpa using this

theorem loss_change (hC : EveryoneClaims l) {s : S} (hs : s ∈ allSources l) {b b' : V × X → ℝ} {δ : ℝ}
    (hb : ∀ c ∈ allClaims l, 0 ≤ b c ∧ b c ≤ 1) (hb' : ∀ c ∈ allClaims l, 0 ≤ b' c ∧ b' c ≤ 1)
    (hd : ∀ c ∈ allClaims l, |b c - b' c| ≤ δ) : |loss l b s - loss l b' s| ≤ (allClaims l).card * (2 * δ) := by
  rw [loss_complete hC hs, loss_complete hC hs, ← Finset.sum_sub_distrib]
  refine (Finset.abs_sum_le_sum_abs _ _).trans ?_
  have : ∑ d ∈ allClaims l, |(b d - hit l s d) ^ 2 - (b' d - hit l s d) ^ 2| ≤ ∑ _d ∈ allClaims l, 2 * δ := by
    refine Finset.sum_le_sum fun c hc => ?_
    have h1 := hit_range (l := l) s c
    have h2 := hb c hc
    have h3 := hb' c hc
    have h4 : |b c + b' c - 2 * hit l s c| ≤ 2 := by rw [abs_le]; constructor <;> linarith
    rw [show (b c - hit l s c) ^ 2 - (b' c - hit l s c) ^ 2 = (b c + b' c - 2 * hit l s c) * (b c - b' c) by ring, abs_mul]
    exact mul_le_mul h4 (hd c hc) (abs_nonneg _) (by norm_num)
  rwa [Finset.sum_const, nsmul_eq_mul] at this

theorem crhW_change (hC : EveryoneClaims l) (hl : l ≠ []) {eps : ℝ} (he : 0 < eps) {s : S} (hs : s ∈ allSources l) {b b' : V × X → ℝ} {δ : ℝ}
    (hb : ∀ c ∈ allClaims l, 0 ≤ b c ∧ b c ≤ 1) (hb' : ∀ c ∈ allClaims l, 0 ≤ b' c ∧ b' c ≤ 1)
    (hd : ∀ c ∈ allClaims l, |b c - b' c| ≤ δ) : |crhW l eps b s - crhW l eps b' s| ≤ 4 * (allClaims l).card * δ / eps := by
  have hn : (0 : ℝ) < (allSources l).card := by exact_mod_cast (allSources_nonempty hl).card_pos
  have hge : ∀ (b : V × X → ℝ) (r : S), eps ≤ eps + loss l b r := fun b r => by linarith [loss_nonneg (l := l) b r]
  have hA : ∀ b : V × X → ℝ, (allSources l).card * eps ≤ ∑ r ∈ allSources l, (eps + loss l b r) := by
    intro b
    have : ∑ _r ∈ allSources l, eps ≤ ∑ r ∈ allSources l, (eps + loss l b r) := Finset.sum_le_sum fun r _ => hge b r
    rwa [Finset.sum_const, nsmul_eq_mul] at this
  have h1 := log_lipschitz he (hge b s) (hge b' s)
  have h2 := log_lipschitz (mul_pos hn he) (hA b) (hA b')
  have h3 : |(eps + loss l b s) - (eps + loss l b' s)| ≤ (allClaims l).card * (2 * δ) := by
    rw [show eps + loss l b s - (eps + loss l b' s) = loss l b s - loss l b' s by ring]
    exact loss_change hC hs hb hb' hd
  have h4 : |(∑ r ∈ allSources l, (eps + loss l b r)) - ∑ r ∈ allSources l, (eps + loss l b' r)| ≤
      (allSources l).card * ((allClaims l).card * (2 * δ)) := by
    rw [← Finset.sum_sub_distrib]
    refine (Finset.abs_sum_le_sum_abs _ _).trans ?_
    have : ∑ r ∈ allSources l, |eps + loss l b r - (eps + loss l b' r)| ≤ ∑ _r ∈ allSources l, (allClaims l).card * (2 * δ) := by
      refine Finset.sum_le_sum fun r hr => ?_
      rw [show eps + loss l b r - (eps + loss l b' r) = loss l b r - loss l b' r by ring]
      exact loss_change hC hr hb hb' hd
    rwa [Finset.sum_const, nsmul_eq_mul] at this
  have h5 := h1.trans (div_le_div_of_nonneg_right h3 he.le)
  have h6 := h2.trans (div_le_div_of_nonneg_right h4 (mul_pos hn he).le)
  rw [mul_div_mul_left _ _ hn.ne'] at h6
  have hpos : ∀ b : V × X → ℝ, 0 < ∑ r ∈ allSources l, (eps + loss l b r) := fun b => (mul_pos hn he).trans_le (hA b)
  unfold crhW
  rw [Real.log_div (he.trans_le (hge b s)).ne' (hpos b).ne', Real.log_div (he.trans_le (hge b' s)).ne' (hpos b').ne']
  have e : 4 * (allClaims l).card * δ / eps = (allClaims l).card * (2 * δ) / eps + (allClaims l).card * (2 * δ) / eps := by ring
  rw [e]
  rw [abs_le] at h5 h6 ⊢
  constructor <;> linarith [h5.1, h5.2, h6.1, h6.2]

theorem crh_range (hl : l ≠ []) {eps : ℝ} (he : 0 < eps) (k : Nat) {c : V × X} : 0 ≤ (crhAt l eps k).2 c ∧ (crhAt l eps k).2 c ≤ 1 := by
  have hsub : sourcesOf l c ⊆ allSources l := fun s hs => (mem_allSources l).2 (mem_sources_of_sourcesOf l hs)
  cases k with
  | zero =>
    have hn : (0 : ℝ) < (allSources l).card := by exact_mod_cast (allSources_nonempty hl).card_pos
    show 0 ≤ ((sourcesOf l c).card : ℝ) / _ ∧ ((sourcesOf l c).card : ℝ) / _ ≤ 1
    refine ⟨by positivity, ?_⟩
    rw [div_le_one hn]
    exact_mod_cast Finset.card_le_card hsub
  | succ k =>
    have hT := he.trans_le (crh_total (l := l) hl he k)
    have h : ∀ r ∈ allSources l, 0 ≤ (crhAt l eps (k + 1)).1 r := by
      intro r hr
      rw [crh_succ]
      exact he.le.trans (crhT_ge' hl he _ ((mem_allSources l).1 hr))
    rw [crhAt_belief]
    dsimp only
    refine ⟨div_nonneg (Finset.sum_nonneg fun r hr => h r (hsub hr)) hT.le, ?_⟩
    rw [div_le_one hT]
    exact Finset.sum_le_sum_of_subset_of_nonneg hsub fun r hr _ => h r hr

/-- The objective after the first iteration. -/
theorem crh_first (hC : EveryoneClaims l) (hl : l ≠ []) {eps : ℝ} (he : 0 < eps) :
    objective l eps (crhAt l eps 1).1 (crhAt l eps 1).2 ≤
      ((allSources l).card * (eps + (allClaims l).card)) * (eps + Real.log (allSources l).card) := by
  have hn : (0 : ℝ) < (allSources l).card := by exact_mod_cast (allSources_nonempty hl).card_pos
  have hn1 : (1 : ℝ) ≤ (allSources l).card := by exact_mod_cast (allSources_nonempty hl).card_pos
  have hT := crh_total (l := l) hl he 0
  have h1 := objective_belief hC eps (t := (crhAt l eps (0 + 1)).1) (by linarith) (crhAt l eps 0).2
  rw [← crhAt_belief] at h1
  have hq : 0 ≤ (∑ r ∈ allSources l, (crhAt l eps (0 + 1)).1 r) * ∑ c ∈ allClaims l, ((crhAt l eps 0).2 c -
      (∑ s ∈ sourcesOf l c, (crhAt l eps (0 + 1)).1 s) / ∑ r ∈ allSources l, (crhAt l eps (0 + 1)).1 r) ^ 2 :=
    mul_nonneg (he.le.trans hT) (Finset.sum_nonneg fun _ _ => sq_nonneg _)
  have h2 := objective_trust hl he (crhAt l eps 0).2 (t := fun _ => eps + Real.log (allSources l).card) (by
    unfold Admissible
    rw [Finset.sum_const, nsmul_eq_mul, add_sub_cancel_left, Real.exp_neg, Real.exp_log hn, mul_inv_cancel₀ hn.ne'])
  rw [← crh_trust] at h2
  have h3 : objective l eps (fun _ => eps + Real.log (allSources l).card) (crhAt l eps 0).2 ≤
      ((allSources l).card * (eps + (allClaims l).card)) * (eps + Real.log (allSources l).card) := by
    unfold objective
    rw [← Finset.mul_sum, mul_comm]
    have hlog := Real.log_nonneg hn1
    refine mul_le_mul_of_nonneg_right ?_ (by linarith)
    have : ∑ s ∈ allSources l, (eps + loss l (crhAt l eps 0).2 s) ≤ ∑ _s ∈ allSources l, (eps + (allClaims l).card) :=
      Finset.sum_le_sum fun s hs => by linarith [loss_le hC hs (b := (crhAt l eps 0).2) fun c _ => crh_range hl he 0]
    rwa [Finset.sum_const, nsmul_eq_mul] at this
  show objective l eps (crhAt l eps (0 + 1)).1 (crhAt l eps (0 + 1)).2 ≤ _
  linarith

theorem objective_nonneg (hl : l ≠ []) {eps : ℝ} (he : 0 < eps) (k : Nat) (b : V × X → ℝ) : 0 ≤ objective l eps (crhAt l eps (k + 1)).1 b :=
  Finset.sum_nonneg fun s hs => mul_nonneg (by
    rw [crh_succ]; exact he.le.trans (crhT_ge' hl he _ ((mem_allSources l).1 hs))) (by linarith [loss_nonneg (l := l) b s])

theorem crh_movement (hC : EveryoneClaims l) (hl : l ≠ []) {eps : ℝ} (he : 0 < eps) (k : Nat) :
    eps * ∑ i ∈ Finset.range k, ∑ c ∈ allClaims l, ((crhAt l eps (i + 1)).2 c - (crhAt l eps (i + 2)).2 c) ^ 2 ≤
      ((allSources l).card * (eps + (allClaims l).card)) * (eps + Real.log (allSources l).card) := by
  have key : objective l eps (crhAt l eps (k + 1)).1 (crhAt l eps (k + 1)).2 +
      eps * ∑ i ∈ Finset.range k, ∑ c ∈ allClaims l, ((crhAt l eps (i + 1)).2 c - (crhAt l eps (i + 2)).2 c) ^ 2 ≤
      objective l eps (crhAt l eps 1).1 (crhAt l eps 1).2 := by
    induction k with
    | zero => simp
    | succ k ih =>
      have := crh_descent hC hl he k
      rw [Finset.sum_range_succ, mul_add]
      linarith
  have h1 := crh_first hC hl he
  have h2 := objective_nonneg (l := l) hl he k (crhAt l eps (k + 1)).2
  linarith

theorem crh_settles (hC : EveryoneClaims l) (hl : l ≠ []) {eps th : ℝ} (he : 0 < eps) (hth : 0 < th) (m : Measure) :
    ∃ n : Nat, (n : ℝ) + 1 ≤ crhBound (allSources l).card (allClaims l).card eps th ∧
      distance m (allSources l) (crhAt l eps n).1 (crhAt l eps (n + 1)).1 < th := by
  have hne := allSources_nonempty hl
  have hn : (0 : ℝ) < (allSources l).card := by exact_mod_cast hne.card_pos
  have hn1 : (1 : ℝ) ≤ (allSources l).card := by exact_mod_cast hne.card_pos
  have hlog := Real.log_nonneg hn1
  have hm : (0 : ℝ) < (allClaims l).card := by
    have : (allClaims l).Nonempty := by
      obtain ⟨c, hc⟩ := List.exists_mem_of_ne_nil _ (claims_ne hl)
      exact ⟨c, (mem_allClaims l).2 hc⟩
    exact_mod_cast this.card_pos
  by_contra hcon
  have hcon : ∀ n : Nat, (n : ℝ) + 1 ≤ crhBound (allSources l).card (allClaims l).card eps th →
      th ≤ distance m (allSources l) (crhAt l eps n).1 (crhAt l eps (n + 1)).1 := by
    intro n hn
    by_contra hlt
    exact hcon ⟨n, hn, not_le.1 hlt⟩
  unfold crhBound at hcon
  have hκ : 0 < min (2 * eps ^ 2) (th / (allSources l).card) := lt_min (by positivity) (by positivity)
  have hκ1 := min_le_left (2 * eps ^ 2) (th / (allSources l).card)
  have hκ2 := min_le_right (2 * eps ^ 2) (th / (allSources l).card)
  have hmove := crh_movement (l := l) hC hl he
  have hE : 0 ≤ ((allSources l).card * (eps + (allClaims l).card)) * (eps + Real.log (allSources l).card) := by positivity
  generalize min (2 * eps ^ 2) (th / (allSources l).card) = κ at *
  rw [show 16 * (allClaims l).card ^ 2 * ((allSources l).card * (eps + (allClaims l).card)) * (eps + Real.log (allSources l).card) =
    16 * ((allClaims l).card : ℝ) ^ 2 * (((allSources l).card * (eps + (allClaims l).card)) * (eps + Real.log (allSources l).card)) by ring] at hcon
  generalize ((allSources l).card * (eps + (allClaims l).card)) * (eps + Real.log (allSources l).card) = E at *
  obtain ⟨B, hBdef⟩ : ∃ B : ℝ, B = 16 * (allClaims l).card ^ 2 * E / (eps ^ 3 * κ ^ 2) := ⟨_, rfl⟩
  rw [← hBdef] at hcon
  have hB : 0 ≤ B := by rw [hBdef]; positivity
  obtain ⟨K, hK⟩ : ∃ K : Nat, K = ⌊B⌋₊ + 1 := ⟨_, rfl⟩
  have hK1 : (K : ℝ) ≤ B + 1 := by rw [hK]; push_cast; linarith [Nat.floor_le hB]
  have hK2 : B < K := by rw [hK]; push_cast; exact Nat.lt_floor_add_one _
  have hstep : ∀ i ∈ Finset.range K, (κ * eps / (4 * (allClaims l).card)) ^ 2 ≤
      ∑ c ∈ allClaims l, ((crhAt l eps (i + 1)).2 c - (crhAt l eps (i + 2)).2 c) ^ 2 := by
    intro i hi
    have hi := Finset.mem_range.1 hi
    by_contra hlt
    push Not at hlt
    have hroot : ∀ c ∈ allClaims l, |(crhAt l eps (i + 1)).2 c - (crhAt l eps (i + 2)).2 c| ≤ Real.sqrt
        (∑ c ∈ allClaims l, ((crhAt l eps (i + 1)).2 c - (crhAt l eps (i + 2)).2 c) ^ 2) := by
      intro c hc
      refine Real.abs_le_sqrt (Finset.single_le_sum (f := fun c => ((crhAt l eps (i + 1)).2 c - (crhAt l eps (i + 2)).2 c) ^ 2)
        (fun _ _ => sq_nonneg _) hc)
    generalize ∑ c ∈ allClaims l, ((crhAt l eps (i + 1)).2 c - (crhAt l eps (i + 2)).2 c) ^ 2 = q at hlt hroot
    have hsq : Real.sqrt q < κ * eps / (4 * (allClaims l).card) := (Real.sqrt_lt' (by positivity)).2 hlt
    have hδ : 4 * (allClaims l).card * Real.sqrt q / eps < κ := by
      rw [lt_div_iff₀ (by positivity)] at hsq
      rw [div_lt_iff₀ he]
      linarith
    have hge : ∀ (j : Nat), ∀ s ∈ allSources l, eps ≤ (crhAt l eps (j + 1)).1 s := by
      intro j s hs
      rw [crh_succ]
      exact crhT_ge' hl he _ ((mem_allSources l).1 hs)
    have hd := distance_le hne he (δ := 4 * (allClaims l).card * Real.sqrt q / eps) (by positivity) (hge (i + 1)) (hge (i + 2)) (fun s hs => by
      rw [crh_trust, crh_trust]
      exact crhW_change hC hl he hs (fun c _ => crh_range hl he _) (fun c _ => crh_range hl he _) hroot) (hδ.le.trans hκ1) m
    have hfar := hcon (i + 2) (by
      have : ((i + 1 : Nat) : ℝ) ≤ K := by exact_mod_cast hi
      push_cast at this ⊢
      linarith)
    have : (allSources l).card * (4 * (allClaims l).card * Real.sqrt q / eps) < th := by
      calc (allSources l).card * (4 * (allClaims l).card * Real.sqrt q / eps) < (allSources l).card * κ := mul_lt_mul_of_pos_left hδ hn
        _ ≤ (allSources l).card * (th / (allSources l).card) := mul_le_mul_of_nonneg_left hκ2 hn.le
        _ = th := by field_simp
    exact absurd (hfar.trans hd) (not_le.2 this)
  have hsum := Finset.sum_le_sum hstep
  rw [Finset.sum_const, Finset.card_range, nsmul_eq_mul] at hsum
  have htot := (mul_le_mul_of_nonneg_left hsum he.le).trans (hmove K)
  have : (K : ℝ) ≤ B := by
    rw [hBdef, le_div_iff₀ (by positivity)]
    have e : eps * (K * (κ * eps / (4 * (allClaims l).card)) ^ 2) * (16 * (allClaims l).card ^ 2) = K * (eps ^ 3 * κ ^ 2) := by
      field_simp
      ring
    rw [← e]
    have := mul_le_mul_of_nonneg_right htot (show (0 : ℝ) ≤ 16 * (allClaims l).card ^ 2 by positivity)
    linarith
  linarith

/-- **C89.** On a complete dataset CRH with a `ConvergenceIterator` of any measure and positive threshold
succeeds, if the limit is at least `crhBound`, which depends only on the numbers of sources and
claims, `eps` and the threshold; and it does not need more iterations than that. -/
theorem C89_settles (l : List (S × V × X)) (am : Bool) (f : Option (V → X → X → Option Ex)) (d : Dataset S V X Ex)
    (hd : Dataset.mk' l am f = .ok d) (hC : EveryoneClaims l) (hl : l ≠ []) {eps th : ℝ} (he : 0 < eps) (hth : 0 < th) (m : Measure)
    (pr : Option Prior) (limit : Int) (fuel : Nat) (clock : Nat → Ex) (st : IterState Ex)
    (hlim : crhBound (allSources l).card (allClaims l).card eps th ≤ (limit : ℝ)) (hfuel : limit < (fuel : Int)) :
    ∃ r, (⟨.crh (fin eps), .conv (some m) (fin th) limit, pr⟩ : AlgCfg Ex).run d fuel clock st = .ok r ∧
      ∃ n : Nat, r.iterations = some n ∧ (n : ℝ) ≤ crhBound (allSources l).card (allClaims l).card eps th := by
  obtain rfl := mk'_ex hd
  obtain ⟨n, hn, hdist⟩ := crh_settles hC hl he hth m
  have hlim' : ((n + 1 : Nat) : Int) ≤ limit := by
    have : (((n + 1 : Nat) : Int) : ℝ) ≤ (limit : ℝ) := by push_cast; linarith
    exact_mod_cast this
  obtain ⟨r, hr, k, hk, hkn⟩ := run_succeeds_of_lt (by simp) hl
    (fun limit => crh_implements hl f (.conv (some m) (fin th) limit) pr eps he) (N := n)
    (by
      have := hdist
      rw [crh_succ] at this
      exact this) limit fuel clock st hlim' (by omega)
  refine ⟨r, hr, k, hk, ?_⟩
  have : (k : ℝ) ≤ ((n + 1 : Nat) : ℝ) := by exact_mod_cast hkn
  push_cast at this
  linarith

/-! ### Incomplete datasets -/

theorem loss_undisputed {c : V × X} (hc : rivals l c = {c}) (b : V × X → ℝ) (s : S) :
    loss l (Function.update b c 1) s = loss l b s - if s ∈ sourcesOf l c then (b c - 1) ^ 2 else 0 := by
  have hmem : ∀ {c' d : V × X}, c' ∈ claimsOf l s → d ∈ rivals l c' → d = c → c' = c := by
    rintro c' d h1 h2 rfl
    have : c' ∈ rivals l d := by
      simp only [rivals, Finset.mem_filter] at h2 ⊢
      exact ⟨(mem_allClaims l).2 (mem_claims_of_claimsOf l h1), h2.2.symm⟩
    rw [hc] at this
    exact Finset.mem_singleton.1 this
  unfold loss
  by_cases h : c ∈ claimsOf l s
  · rw [if_pos ((mem_sourcesOf l).2 ((mem_claimsOf l).1 h)), ← Finset.add_sum_erase _ _ h, ← Finset.add_sum_erase _ _ h, hc,
      Finset.sum_singleton, Finset.sum_singleton, Function.update_self, if_pos rfl]
    have : ∀ c' ∈ (claimsOf l s).erase c, (∑ d ∈ rivals l c', (Function.update b c 1 d - if c' = d then 1 else 0) ^ 2) =
        ∑ d ∈ rivals l c', (b d - if c' = d then 1 else 0) ^ 2 := by
      intro c' hc'
      obtain ⟨hne, hm⟩ := Finset.mem_erase.1 hc'
      refine Finset.sum_congr rfl fun d hd => ?_
      rw [Function.update_of_ne fun e => hne (hmem hm hd e)]
    rw [Finset.sum_congr rfl this]
    ring
  · rw [if_neg fun h' => h ((mem_claimsOf l).2 ((mem_sourcesOf l).1 h')), sub_zero]
    refine Finset.sum_congr rfl fun c' hc' => Finset.sum_congr rfl fun d hd => ?_
    rw [Function.update_of_ne]
    rintro e
    exact h (hmem hc' hd e ▸ hc')

/-- **C89.** Completeness is needed: if a claim is the only one about its variable and some source says
nothing about it, its belief is below 1, and belief 1 would lower the objective. -/
theorem C89_incomplete {f : Option (V → X → X → Option Ex)} {am : Bool} {d : Dataset S V X Ex} (hd : Dataset.mk' l am f = .ok d)
    {eps : ℝ} (he : 0 < eps) {pr : Option Prior}
    {it : IterCfg Ex} {fuel : Nat} {clock : Nat → Ex} {st : IterState Ex} {r : Result S V X Ex}
    (hr : AlgCfg.run ⟨.crh (fin eps), it, pr⟩ d fuel clock st = .ok r) (hn : r.iterations ≠ some 0)
    {c : V × X} (hc : c ∈ allClaims l) (hone : rivals l c = {c}) {s : S} (hs : s ∈ allSources l) (hsil : s ∉ sourcesOf l c) :
    ∃ p : Scores S V X, Reports l r p ∧ p.2 c < 1 ∧ objective l eps p.1 (Function.update p.2 c 1) < objective l eps p.1 p.2 := by
  obtain rfl := mk'_ex hd
  have hl : l ≠ [] := by
    rintro rfl
    simp [allSources, recorded, firstsBy] at hs
  obtain ⟨m, e, rep⟩ := (crh_implements hl f it pr eps he).run_reports (by simp) hr
  obtain ⟨k, rfl⟩ : ∃ k, m = k + 1 := ⟨m - 1, by
    rcases m with _ | m
    · exact absurd e hn
    · rfl⟩
  have hT := he.trans_le (crh_total (l := l) hl he k)
  have hpos : ∀ r ∈ allSources l, 0 < (crhAt l eps (k + 1)).1 r := by
    intro r hr
    rw [crh_succ]
    exact he.trans_le (crhT_ge' hl he _ ((mem_allSources l).1 hr))
  have hsub : sourcesOf l c ⊆ allSources l := fun s hs => (mem_allSources l).2 (mem_sources_of_sourcesOf l hs)
  have hlt : (crhAt l eps (k + 1)).2 c < 1 := by
    rw [crhAt_belief]
    dsimp only
    rw [div_lt_one hT]
    exact Finset.sum_lt_sum_of_subset hsub hs hsil (hpos s hs) fun r hr _ => (hpos r hr).le
  refine ⟨_, rep, hlt, ?_⟩
  have hp : 0 < ((crhAt l eps (k + 1)).2 c - 1) ^ 2 := by
    have : (crhAt l eps (k + 1)).2 c - 1 ≠ 0 := by linarith
    positivity
  unfold objective
  obtain ⟨s', hs'⟩ : ∃ s', s' ∈ sourcesOf l c := by
    obtain ⟨t, ht, rfl⟩ := (mem_claims l).1 ((mem_allClaims l).1 hc)
    exact ⟨t.1, (mem_sourcesOf l).2 ht⟩
  refine Finset.sum_lt_sum (fun r hr => mul_le_mul_of_nonneg_left ?_ (hpos r hr).le)
    ⟨s', hsub hs', mul_lt_mul_of_pos_left ?_ (hpos s' (hsub hs'))⟩
  · rw [loss_undisputed hone]
    split <;> linarith
  · rw [loss_undisputed hone, if_pos hs']
    linarith

/-! ### Cases -/

/-- Two sources, two variables. -/
def fullTriples : List (Nat × Nat × Nat) := [(0, 0, 5), (1, 0, 6), (0, 1, 7), (1, 1, 7)]

theorem full_complete : EveryoneClaims fullTriples := by
  intro s hs c hc
  have hs' : s = 0 ∨ s = 1 := by
    have : allSources fullTriples = {0, 1} := by decide
    simpa [this] using hs
  have hc' : c.1 = 0 ∨ c.1 = 1 := by
    have : allClaims fullTriples = {(0, 5), (0, 6), (1, 7)} := by decide
    rw [this] at hc
    simp only [Finset.mem_insert, Finset.mem_singleton] at hc
    rcases hc with rfl | rfl | rfl <;> simp
  have hrec : recorded fullTriples = fullTriples := recorded_eq_self (by decide)
  rw [hrec]
  rcases hs' with rfl | rfl <;> rcases hc' with h | h <;> rw [h] <;>
    simp [fullTriples]

example (m : Measure) (clock : Nat → Ex) : ∃ (d : Dataset Nat Nat Nat Ex) (r : Result Nat Nat Nat Ex),
    Dataset.mk' fullTriples false none = .ok d ∧
    AlgCfg.run ⟨.crh (fin 1), .conv (some m) (fin 1) 10000, none⟩ d 10001 clock {} = .ok r := by
  obtain ⟨d, hd⟩ := exists_dataset fullTriples (by decide)
  obtain ⟨r, hr, -⟩ := C89_settles fullTriples false none d hd full_complete (by decide) (eps := 1) (th := 1) one_pos one_pos m none 10000 10001
    clock {}
    (by
      have h1 : (allSources fullTriples).card = 2 := by decide
      have h2 : (allClaims fullTriples).card = 3 := by decide
      have h3 := Real.log_le_sub_one_of_pos (x := (2 : ℝ)) (by norm_num)
      rw [h1, h2]
      unfold crhBound
      have h4 : min (2 * (1 : ℝ) ^ 2) (1 / ((2 : Nat) : ℝ)) = 1 / 2 := by norm_num
      rw [h4]
      push_cast
      norm_num
      linarith) (by norm_num)
  exact ⟨d, r, hd, hr⟩

/-- The second variable of `twoParts` is undisputed, and sources 0 and 1 say nothing about it. -/
example (clock : Nat → Ex) : ∃ (d : Dataset Nat Nat Nat Ex) (r : Result Nat Nat Nat Ex),
    Dataset.mk' twoParts false none = .ok d ∧
    AlgCfg.run ⟨.crh (fin 1), .fixed 5, none⟩ d 100 clock {} = .ok r ∧ r.iterations ≠ some 0 ∧
    (1, 5) ∈ allClaims twoParts ∧ rivals twoParts (1, 5) = {(1, 5)} ∧ 0 ∈ allSources twoParts ∧ 0 ∉ sourcesOf twoParts (1, 5) := by
  obtain ⟨d, hd⟩ := exists_dataset twoParts (by decide)
  obtain rfl := mk'_ex hd
  obtain ⟨r, h, e, -⟩ := (crh_implements (l := twoParts) (by decide) none (.fixed 5) none 1 one_pos).run_fixed
    nofun (by simp [twoParts]) (N := 5) rfl (fuel := 100) (by norm_num) clock {}
  exact ⟨_, r, hd, h, by rw [e]; decide, by decide, by decide, by decide, by decide⟩

/-- Runs as in `C89_objective`. -/
example (clock : Nat → Ex) : ∃ (d : Dataset Nat Nat Nat Ex) (r r' : Result Nat Nat Nat Ex),
    Dataset.mk' fullTriples false none = .ok d ∧
    AlgCfg.run ⟨.crh (fin 0.1), .fixed 2, none⟩ d 100 clock {} = .ok r ∧ r.iterations = some 2 ∧
    AlgCfg.run ⟨.crh (fin 0.1), .fixed 9, none⟩ d 100 clock {} = .ok r' ∧ r'.iterations = some 9 := by
  obtain ⟨d, hd⟩ := exists_dataset fullTriples (by decide)
  obtain rfl := mk'_ex hd
  obtain ⟨r, h, e, -⟩ := (crh_implements (l := fullTriples) (by decide) none (.fixed 2) none 0.1 (by norm_num)).run_fixed
    nofun (by simp [fullTriples]) (N := 2) rfl (fuel := 100) (by norm_num) clock {}
  obtain ⟨r', h', e', -⟩ := (crh_implements (l := fullTriples) (by decide) none (.fixed 9) none 0.1 (by norm_num)).run_fixed
    nofun (by simp [fullTriples]) (N := 9) rfl (fuel := 100) (by norm_num) clock {}
  exact ⟨_, r, r', hd, h, e, h', e'⟩

end TD
