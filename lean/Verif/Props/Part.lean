import Verif.Props.Order
import Verif.Spec.Part
/-!
# C70: independent parts of a dataset do not influence each other
-/

namespace TD
open Spec Ex
attribute [-instance] instBEqProd

variable {S V X : Type} [DecidableEq S] [DecidableEq V] [DecidableEq X] {l l' : List (S × V × X)}

namespace Spec.Part

theorem mem_iff_source (h : Part l' l) {s : S} (hs : s ∈ sources l') (c : V × X) :
    (s, c) ∈ recorded l ↔ (s, c) ∈ recorded l' := by
  refine ⟨fun hc => h.source _ hc ?_, h.sub _⟩
  rw [← mem_allSources, allSources, List.mem_toFinset, List.mem_map] at hs
  exact hs

theorem mem_iff_var (h : Part l' l) {c : V × X} (hc : c ∈ claims l') {d : V × X} (hd : c.1 = d.1) (s : S) :
    (s, d) ∈ recorded l ↔ (s, d) ∈ recorded l' := by
  refine ⟨fun hc' => h.var _ hc' ?_, h.sub _⟩
  obtain ⟨t, ht, rfl⟩ := (mem_claims l').1 hc
  exact ⟨t, ht, hd⟩

theorem claimsOf (h : Part l' l) {s : S} (hs : s ∈ sources l') : claimsOf l s = claimsOf l' s := by
  ext c
  rw [mem_claimsOf l, mem_claimsOf l', h.mem_iff_source hs]

theorem sourcesOf (h : Part l' l) {c : V × X} (hc : c ∈ claims l') : sourcesOf l c = sourcesOf l' c := by
  ext s
  rw [mem_sourcesOf l, mem_sourcesOf l', h.mem_iff_var hc rfl]

theorem rivals (h : Part l' l) {c : V × X} (hc : c ∈ claims l') : rivals l c = rivals l' c := by
  ext d
  rw [mem_rivals l, mem_rivals l', mem_claims l, mem_claims l']
  refine and_congr_left fun hd => ?_
  constructor
  · rintro ⟨t, ht, rfl⟩; exact ⟨t, (h.mem_iff_var hc hd t.1).1 ht, rfl⟩
  · rintro ⟨t, ht, rfl⟩; exact ⟨t, (h.mem_iff_var hc hd t.1).2 ht, rfl⟩

theorem nClaims (h : Part l' l) {s : S} (hs : s ∈ sources l') : nClaims l s = nClaims l' s := by
  unfold Spec.nClaims; rw [h.claimsOf hs]

theorem nSources (h : Part l' l) {c : V × X} (hc : c ∈ claims l') : nSources l c = nSources l' c := by
  unfold Spec.nSources; rw [h.sourcesOf hc]

theorem priorOf (h : Part l' l) (p : Prior) {c : V × X} (hc : c ∈ claims l') : priorOf l p c = priorOf l' p c := by
  cases p with
  | fixed => rfl
  | voted =>
    simp only [Spec.priorOf, priorVoted, h.nSources hc, h.rivals hc]
    congr 1
    exact Finset.sum_congr rfl fun d hd => h.nSources ((mem_rivals l').1 hd).1
  | count => exact h.nSources hc
  | uniform => simp only [Spec.priorOf, priorUniform, h.rivals hc]

theorem ne_nil (_ : Part l' l) (hl : l' ≠ []) (h : Part l' l) : l ≠ [] := by
  rintro rfl
  obtain ⟨s, hs⟩ := allSources_nonempty hl
  rw [allSources, List.mem_toFinset, List.mem_map] at hs
  obtain ⟨t, ht, -⟩ := hs
  have := h.sub t ht
  simp [recorded, firstsBy] at this

end Spec.Part

/-- Scores on the labels of `l'` that differ by the factors `a` and `b`. -/
def Prop2 (l' : List (S × V × X)) (a b : ℝ) (p p' : Scores S V X) : Prop :=
  (∀ s ∈ sources l', p.1 s = a * p'.1 s) ∧ ∀ c ∈ claims l', p.2 c = b * p'.2 c

theorem scaled_mul {A : Type} {F F' : Finset A} {f f' : A → ℝ} {k : ℝ} {a : A} (h : f a = k * f' a)
    (h1 : top F' f' ≠ 0) : scaled F f a = k * top F' f' / top F f * scaled F' f' a := by
  unfold scaled
  rw [h]
  field_simp

theorem norm_prop {a b : ℝ} {p p' : Scores S V X} (ha : 0 < a) (hb : 0 < b) (h : Prop2 l' a b p p')
    (h1 : 0 < top (allSources l) p.1) (h2 : 0 < top (allClaims l) p.2)
    (h3 : 0 < top (allSources l') p'.1) (h4 : 0 < top (allClaims l') p'.2) :
    ∃ a b, 0 < a ∧ 0 < b ∧ Prop2 l' a b (normBoth l p) (normBoth l' p') :=
  ⟨_, _, div_pos (mul_pos ha h3) h1, div_pos (mul_pos hb h4) h2,
    fun s hs => scaled_mul (h.1 s hs) h3.ne', fun c hc => scaled_mul (h.2 c hc) h4.ne'⟩

theorem sumTrust_prop (h : Part l' l) {b : ℝ} {q q' : V × X → ℝ} (hq : ∀ c ∈ claims l', q c = b * q' c)
    {s : S} (hs : s ∈ sources l') : sumTrust l q s = b * sumTrust l' q' s := by
  unfold sumTrust
  rw [h.claimsOf hs, Finset.mul_sum]
  exact Finset.sum_congr rfl fun c hc => hq c (mem_claims_of_claimsOf l' hc)

theorem sumBelief_prop (h : Part l' l) {a : ℝ} {q q' : S → ℝ} (hq : ∀ s ∈ sources l', q s = a * q' s)
    {c : V × X} (hc : c ∈ claims l') : sumBelief l q c = a * sumBelief l' q' c := by
  unfold sumBelief
  rw [h.sourcesOf hc, Finset.mul_sum]
  exact Finset.sum_congr rfl fun s hs => hq s (mem_sources_of_sourcesOf l' hs)

theorem invested_prop (h : Part l' l) {a : ℝ} {q q' : S → ℝ} (hq : ∀ s ∈ sources l', q s = a * q' s)
    {c : V × X} (hc : c ∈ claims l') : invested l q c = a * invested l' q' c := by
  refine sumBelief_prop h (q := fun s => q s / nClaims l s) (q' := fun s => q' s / nClaims l' s) ?_ hc
  intro s hs
  rw [hq s hs, h.nClaims hs, mul_div_assoc]

theorem regained_prop (h : Part l' l) {a b : ℝ} (ha : a ≠ 0) {p p' : Scores S V X} (hp : Prop2 l' a b p p')
    {s : S} (hs : s ∈ sources l') : regained l p s = b * regained l' p' s := by
  unfold regained
  rw [h.claimsOf hs, Finset.mul_sum]
  refine Finset.sum_congr rfl fun c hc => ?_
  have hc' := mem_claims_of_claimsOf l' hc
  rw [hp.2 c hc', hp.1 s hs, h.nClaims hs, invested_prop h hp.1 hc', mul_div_assoc, mul_div_mul_left _ _ ha,
    mul_assoc]

theorem sums_prop (h : Part l' l) (hl : l ≠ []) (hl' : l' ≠ []) {a b : ℝ} (_ : 0 < a) (hb : 0 < b)
    {p p' : Scores S V X} (hp : Prop2 l' a b p p') (hi : PosB l p) (hi' : PosB l' p') :
    ∃ a b, 0 < a ∧ 0 < b ∧ Prop2 l' a b (sumsStep l p) (sumsStep l' p') := by
  have ht := fun s hs => sumTrust_prop h hp.2 (s := s) hs
  exact norm_prop (p := (sumTrust l p.2, sumBelief l (sumTrust l p.2)))
    (p' := (sumTrust l' p'.2, sumBelief l' (sumTrust l' p'.2))) hb hb
    ⟨ht, fun c hc => sumBelief_prop h ht hc⟩
    (topS_pos hl fun s hs => sumTrust_pos hi hs)
    (topC_pos hl fun c hc => sumBelief_pos (fun s hs => sumTrust_pos hi hs) hc)
    (topS_pos hl' fun s hs => sumTrust_pos hi' hs)
    (topC_pos hl' fun c hc => sumBelief_pos (fun s hs => sumTrust_pos hi' hs) hc)

theorem avlog_top {l : List (S × V × X)} (hm : ∃ s, Multi l s) {p : Scores S V X} (hp : AvInv l p) :
    0 < top (allSources l) (avT l p.2) ∧ 0 < top (allClaims l) (sumBelief l (avT l p.2)) := by
  obtain ⟨s, hs⟩ := hm
  have hsm := multi_mem hs
  obtain ⟨c, hc⟩ : (claimsOf l s).Nonempty := claimsOf_nonempty l hsm
  exact ⟨top_pos ((mem_allSources l).2 hsm) (avT_pos hp hs),
    top_pos ((mem_allClaims l).2 (mem_claims_of_claimsOf l hc)) (avB_pos hp hs hc)⟩

theorem avlog_prop (h : Part l' l) (hm : ∃ s, Multi l s) (hm' : ∃ s, Multi l' s) {a b : ℝ} (_ : 0 < a) (hb : 0 < b)
    {p p' : Scores S V X} (hp : Prop2 l' a b p p') (hi : AvInv l p) (hi' : AvInv l' p') :
    ∃ a b, 0 < a ∧ 0 < b ∧ Prop2 l' a b (avlogStep l p) (avlogStep l' p') := by
  have ht : ∀ s ∈ sources l', avT l p.2 s = b * avT l' p'.2 s := by
    intro s hs
    unfold avT
    rw [h.nClaims hs, sumTrust_prop h hp.2 hs]
    ring
  exact norm_prop (p := (avT l p.2, sumBelief l (avT l p.2)))
    (p' := (avT l' p'.2, sumBelief l' (avT l' p'.2))) hb hb
    ⟨ht, fun c hc => sumBelief_prop h ht hc⟩ (avlog_top hm hi).1 (avlog_top hm hi).2
    (avlog_top hm' hi').1 (avlog_top hm' hi').2

theorem invest_prop (h : Part l' l) (hl : l ≠ []) (hl' : l' ≠ []) (g : ℝ) {a b : ℝ} (ha : 0 < a) (hb : 0 < b)
    {p p' : Scores S V X} (hp : Prop2 l' a b p p') (hi : PosAll l p) (hi' : PosAll l' p') :
    ∃ a b, 0 < a ∧ 0 < b ∧ Prop2 l' a b (investStep l g p) (investStep l' g p') := by
  have hr : ∀ s ∈ sources l, 0 < regained l p s := fun s hs => regained_pos hi hs
  have hr' : ∀ s ∈ sources l', 0 < regained l' p' s := fun s hs => regained_pos hi' hs
  have ht := fun s hs => regained_prop h ha.ne' hp (s := s) hs
  refine norm_prop (p := (regained l p, fun c => invested l (regained l p) c ^ g))
    (p' := (regained l' p', fun c => invested l' (regained l' p') c ^ g)) hb (b := b ^ g)
    (Real.rpow_pos_of_pos hb g) ⟨ht, ?_⟩ (topS_pos hl hr)
    (topC_pos hl fun c hc => Real.rpow_pos_of_pos (invested_pos hr hc) g) (topS_pos hl' hr')
    (topC_pos hl' fun c hc => Real.rpow_pos_of_pos (invested_pos hr' hc) g)
  intro c hc
  simp only
  rw [invested_prop h ht hc, Real.mul_rpow hb.le (invested_pos hr' hc).le]

theorem pooled_prop (h : Part l' l) (hl : l ≠ []) (hl' : l' ≠ []) (g : ℝ) {a b : ℝ} (ha : 0 < a) (hb : 0 < b)
    {p p' : Scores S V X} (hp : Prop2 l' a b p p') (hi : PosAll l p) (hi' : PosAll l' p') :
    ∃ a b, 0 < a ∧ 0 < b ∧ Prop2 l' a b (pooledStep l g p) (pooledStep l' g p') := by
  have hr : ∀ s ∈ sources l, 0 < regained l p s := fun s hs => regained_pos hi hs
  have hr' : ∀ s ∈ sources l', 0 < regained l' p' s := fun s hs => regained_pos hi' hs
  have ht := fun s hs => regained_prop h ha.ne' hp (s := s) hs
  have hpow : ∀ c ∈ claims l', invested l (regained l p) c ^ g = b ^ g * invested l' (regained l' p') c ^ g := by
    intro c hc
    rw [invested_prop h ht hc, Real.mul_rpow hb.le (invested_pos hr' hc).le]
  refine norm_prop (p := (regained l p, fun c => invested l (regained l p) c *
      (invested l (regained l p) c ^ g / ∑ d ∈ rivals l c, invested l (regained l p) d ^ g)))
    (p' := (regained l' p', fun c => invested l' (regained l' p') c *
      (invested l' (regained l' p') c ^ g / ∑ d ∈ rivals l' c, invested l' (regained l' p') d ^ g))) hb hb
    ⟨ht, ?_⟩ (topS_pos hl hr) (topC_pos hl fun c hc => pooledB_pos hi g hc) (topS_pos hl' hr')
    (topC_pos hl' fun c hc => pooledB_pos hi' g hc)
  intro c hc
  simp only
  rw [h.rivals hc, Finset.sum_congr rfl fun d hd => hpow d ((mem_rivals l').1 hd).1, ← Finset.mul_sum, hpow c hc,
    mul_div_mul_left _ _ (Real.rpow_pos_of_pos hb g).ne', invested_prop h ht hc, mul_assoc]

theorem tf_prop (h : Part l' l) (imp : V → X → X → ℝ) (rho gamma : ℝ)
    {p p' : Scores S V X} (hp : Prop2 l' 1 1 p p') :
    Prop2 l' 1 1 (tfStep l imp rho gamma p) (tfStep l' imp rho gamma p') := by
  have htau : ∀ s ∈ sources l', -Real.log (1 - p.1 s) = 1 * -Real.log (1 - p'.1 s) := by
    intro s hs
    rw [hp.1 s hs, one_mul, one_mul]
  have hsig : ∀ c ∈ claims l', ∑ s ∈ sourcesOf l c, -Real.log (1 - p.1 s) =
      1 * ∑ s ∈ sourcesOf l' c, -Real.log (1 - p'.1 s) := fun c hc => sumBelief_prop h htau hc
  have hb : ∀ c ∈ claims l', (tfStep l imp rho gamma p).2 c = 1 * (tfStep l' imp rho gamma p').2 c := by
    intro c hc
    simp only [tfStep, one_mul]
    rw [h.rivals hc, hsig c hc, one_mul]
    congr 6
    refine Finset.sum_congr rfl fun d hd => ?_
    rw [hsig d ((mem_rivals l').1 (Finset.mem_of_mem_erase hd)).1, one_mul]
  refine ⟨fun s hs => ?_, hb⟩
  show sumTrust l (tfStep l imp rho gamma p).2 s / nClaims l s =
    1 * (sumTrust l' (tfStep l' imp rho gamma p').2 s / nClaims l' s)
  rw [sumTrust_prop h hb hs, h.nClaims hs]
  ring

theorem iterate_prop {step step' : Scores S V X → Scores S V X} {Inv Inv' : Scores S V X → Prop}
    {init init' : Scores S V X} (hinv : ∀ n, Inv (step^[n] init)) (hinv' : ∀ n, Inv' (step'^[n] init'))
    (h : ∀ a b p p', 0 < a → 0 < b → Prop2 l' a b p p' → Inv p → Inv' p' →
      ∃ a b, 0 < a ∧ 0 < b ∧ Prop2 l' a b (step p) (step' p'))
    (h0 : Prop2 l' 1 1 init init') (n : Nat) :
    ∃ a b, 0 < a ∧ 0 < b ∧ Prop2 l' a b (step^[n] init) (step'^[n] init') := by
  induction n with
  | zero => exact ⟨1, 1, one_pos, one_pos, h0⟩
  | succ n ih =>
    obtain ⟨a, b, ha, hb, hp⟩ := ih
    rw [Function.iterate_succ_apply', Function.iterate_succ_apply']
    exact h a b _ _ ha hb hp (hinv n) (hinv' n)

theorem multiple_of (h : Part l' l) {a b : ℝ} {r r' : Result S V X Ex} {p p' : Scores S V X}
    (hr : Reports l r p) (hr' : Reports l' r' p') (hp : Prop2 l' a b p p') : Multiple l' a b r r' := by
  have hs : ∀ s ∈ allSources l', s ∈ allSources l := by
    intro s
    simp only [allSources, List.mem_toFinset, List.mem_map]
    rintro ⟨t, ht, e⟩; exact ⟨t, h.sub t ht, e⟩
  have hc : ∀ s ∈ allClaims l', s ∈ allClaims l := by
    intro s
    simp only [allClaims, List.mem_toFinset, List.mem_map]
    rintro ⟨t, ht, e⟩; exact ⟨t, h.sub t ht, e⟩
  constructor
  · intro s hs'
    refine ⟨p'.1 s, by rw [hr'.1, if_pos hs'], ?_⟩
    rw [hr.1, if_pos (hs s hs'), hp.1 s ((mem_allSources l').1 hs')]
  · intro v x hx
    refine ⟨p'.2 (v, x), by rw [hr'.2, if_pos hx], ?_⟩
    rw [hr.2, if_pos (hc _ hx), hp.2 _ ((mem_allClaims l').1 hx)]

variable {f : Option (V → X → X → Option ℝ)}

/-- **C70.** TruthFinder on a dataset and on an independent part of it alone, for the same
number of iterations (with whatever iterators): the scores of the part are the same. -/
theorem C70_truthfinder (h : Part l' l) {am am' : Bool} {d d' : Dataset S V X Ex}
    (hd : Dataset.mk' l am (finImp f) = .ok d) (hd' : Dataset.mk' l' am' (finImp f) = .ok d')
    {rho gamma t0 : Ex} {pr : Option Prior} {it it' : IterCfg Ex}
    (hc : Sound l' ⟨.truthFinder rho gamma t0, it', pr⟩) {fuel fuel' : Nat} {clock clock' : Nat → Ex}
    {st st' : IterState Ex} {r r' : Result S V X Ex}
    (hr : AlgCfg.run ⟨.truthFinder rho gamma t0, it, pr⟩ d fuel clock st = .ok r)
    (hr' : AlgCfg.run ⟨.truthFinder rho gamma t0, it', pr⟩ d' fuel' clock' st' = .ok r')
    (hn : r.iterations = r'.iterations) : Multiple l' 1 1 r r' := by
  obtain rfl := mk'_ex hd
  obtain rfl := mk'_ex hd'
  obtain ⟨x, y, z, rfl, rfl, rfl, h0, h1⟩ := hc
  obtain ⟨n, h1', h2⟩ := (tf_implements f it pr x y z h0 h1).run_reports (by simp) hr
  obtain ⟨n', h1'', h2'⟩ := (tf_implements f it' pr x y z h0 h1).run_reports (by simp) hr'
  rw [h1', h1''] at hn
  cases hn
  refine multiple_of h h2 h2' ?_
  clear h2 h2' h1' h1''
  induction n with
  | zero => exact ⟨fun _ _ => (one_mul _).symm, fun _ _ => (one_mul _).symm⟩
  | succ n ih =>
    rw [Function.iterate_succ_apply', Function.iterate_succ_apply']
    exact tf_prop h _ _ _ ih

/-- **C70.** Run an algorithm on a dataset and on an independent part of it alone, for the
same number of iterations (with whatever iterators).  On the part, the scores are the same up to a
positive factor for the trust scores and one for the belief scores; so sources, and claims, of the part
compare in the same way. -/
theorem C70_proportional (h : Part l' l) (hl : l' ≠ []) {am am' : Bool} {d d' : Dataset S V X Ex}
    (hd : Dataset.mk' l am (finImp f) = .ok d) (hd' : Dataset.mk' l' am' (finImp f) = .ok d')
    {k : Kind Ex} {pr : Option Prior} {it it' : IterCfg Ex} (hk : Spec.Kind.IsLocal k)
    (hc : Sound l' ⟨k, it', pr⟩) {fuel fuel' : Nat} {clock clock' : Nat → Ex} {st st' : IterState Ex}
    {r r' : Result S V X Ex} (hr : AlgCfg.run ⟨k, it, pr⟩ d fuel clock st = .ok r)
    (hr' : AlgCfg.run ⟨k, it', pr⟩ d' fuel' clock' st' = .ok r') (hn : r.iterations = r'.iterations) :
    ∃ a b : ℝ, 0 < a ∧ 0 < b ∧ Multiple l' a b r r' := by
  obtain rfl := mk'_ex hd
  obtain rfl := mk'_ex hd'
  have hl2 := h.ne_nil hl h
  have fin : ∀ {init init' : Scores S V X} {step step' : Scores S V X → Scores S V X} {cmp cmp' Inv Inv'},
      Implements ⟨k, it, pr⟩ l (finImp f) init step cmp Inv →
      Implements ⟨k, it', pr⟩ l' (finImp f) init' step' cmp' Inv' → Prop2 l' 1 1 init init' →
      (∀ a b p p', 0 < a → 0 < b → Prop2 l' a b p p' → Inv p → Inv' p' →
        ∃ a b, 0 < a ∧ 0 < b ∧ Prop2 l' a b (step p) (step' p')) →
      ∃ a b : ℝ, 0 < a ∧ 0 < b ∧ Multiple l' a b r r' := by
    intro init init' step step' cmp cmp' Inv Inv' H H' h0 hstep
    have hu : k ≠ .unboundedSums := by rintro rfl; exact hk
    obtain ⟨n, h1, h2⟩ := H.run_reports hu hr
    obtain ⟨n', h1', h2'⟩ := H'.run_reports hu hr'
    rw [h1, h1'] at hn
    cases hn
    obtain ⟨a, b, ha, hb, hp⟩ := iterate_prop H.inv_iterate H'.inv_iterate hstep h0 n
    exact ⟨a, b, ha, hb, multiple_of h h2 h2' hp⟩
  have hprior : ∀ (x : ℝ) (p : Prior), Prop2 l' 1 1 ((fun _ => x), priorOf l p) ((fun _ => x), priorOf l' p) :=
    fun x p => ⟨fun _ _ => (one_mul _).symm, fun c hc => by simp only [one_mul]; exact h.priorOf p hc⟩
  cases k with
  | sums =>
    obtain ⟨p, rfl⟩ := Option.ne_none_iff_exists'.1 hc
    exact fin (sums_implements _ hl2 it p) (sums_implements _ hl it' p) (hprior 0 p)
      fun a b p p' ha hb hp hi hi' => sums_prop h hl2 hl ha hb hp hi hi'
  | averageLog =>
    obtain ⟨hc, s, hs⟩ := hc
    obtain ⟨p, rfl⟩ := Option.ne_none_iff_exists'.1 hc
    have hm' : ∃ s, Multi l' s := ⟨s, hs⟩
    have hm : ∃ s, Multi l s := ⟨s, by
      have hsm := multi_mem (l := l') hs
      unfold Multi
      rw [h.claimsOf hsm]
      exact hs⟩
    exact fin (avlog_implements _ it p hm) (avlog_implements _ it' p hm') (hprior 0 p)
      fun a b p p' ha hb hp hi hi' => avlog_prop h hm hm' ha hb hp hi hi'
  | investment g =>
    obtain ⟨hc, y, rfl⟩ := hc
    obtain ⟨p, rfl⟩ := Option.ne_none_iff_exists'.1 hc
    exact fin (invest_implements _ hl2 it p y) (invest_implements _ hl it' p y) (hprior 1 p)
      fun a b p p' ha hb hp hi hi' => invest_prop h hl2 hl y ha hb hp hi hi'
  | pooledInvestment g =>
    obtain ⟨hc, y, rfl⟩ := hc
    obtain ⟨p, rfl⟩ := Option.ne_none_iff_exists'.1 hc
    exact fin (pooled_implements _ hl2 it p y) (pooled_implements _ hl it' p y) (hprior 1 p)
      fun a b p p' ha hb hp hi hi' => pooled_prop h hl2 hl y ha hb hp hi hi'
  | truthFinder rho gamma t =>
    exact ⟨1, 1, one_pos, one_pos, C70_truthfinder h hd hd' hc hr hr' hn⟩
  | crh => exact hk.elim
  | unboundedSums => exact hk.elim

/-- **C70.** Majority voting: the trust scores are the same, the belief scores differ by a
factor. -/
theorem C70_voting (h : Part l' l) (hl : l' ≠ []) {am am' : Bool} {f f' : Option (V → X → X → Option Ex)}
    {d d' : Dataset S V X Ex} (hd : Dataset.mk' l am f = .ok d) (hd' : Dataset.mk' l' am' f' = .ok d')
    {clock clock' : Nat → Ex} {r r' : Result S V X Ex} (hr : votingRun d clock = .ok r)
    (hr' : votingRun d' clock' = .ok r') : ∃ b : ℝ, 0 < b ∧ Multiple l' 1 b r r' := by
  have hl2 := h.ne_nil hl h
  obtain ⟨_, h1, h2, -⟩ := C29_voting l am f d hd hl2 clock
  obtain ⟨_, h1', h2', -⟩ := C29_voting l' am' f' d' hd' hl clock'
  cases hr.symm.trans h1
  cases hr'.symm.trans h1'
  have t1 := topC_pos hl2 fun c hc => nSources_pos l hc
  have t2 := topC_pos hl fun c hc => nSources_pos l' hc
  refine ⟨_, div_pos (mul_pos one_pos t2) t1, multiple_of h h2 h2' ⟨fun _ _ => (one_mul _).symm, fun c hc => ?_⟩⟩
  exact scaled_mul (by rw [one_mul]; exact h.nSources hc) t2.ne'

/-- Two components; the first is a part. -/
def twoParts : List (Nat × Nat × Nat) := [(0, 0, 5), (1, 0, 6), (2, 1, 5), (3, 1, 5), (2, 2, 7)]

example : Part [(2, 1, 5), (3, 1, 5), (2, 2, 7)] twoParts ∧ NoRepeats twoParts ∧
    Sound [(2, 1, 5), (3, 1, 5), (2, 2, 7)] ⟨.averageLog, .fixed 4, some .voted⟩ ∧
    Spec.Kind.IsLocal .averageLog := by
  have e : recorded twoParts = twoParts := recorded_eq_self (by decide)
  have e' : recorded [(2, 1, 5), (3, 1, 5), (2, 2, 7)] = [(2, 1, 5), (3, 1, 5), (2, 2, 7)] :=
    recorded_eq_self (by decide)
  refine ⟨⟨?_, ?_, ?_⟩, by decide, ⟨by simp, 2, by decide⟩, trivial⟩
  · rw [e, e']; decide
  · rw [e, e']; decide
  · rw [e, e']; decide

end TD
