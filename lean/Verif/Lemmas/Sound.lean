import Verif.Spec.Sound
import Verif.Props.Unbounded
import Verif.Lemmas.Converge
/-!
# Scores are never negative
-/

namespace TD
open Spec Ex

variable {S V X : Type} [DecidableEq S] [DecidableEq V] [DecidableEq X]
variable {l : List (S × V × X)}

theorem normBoth_nonneg {p : Scores S V X} (h : NonNeg l p) : NonNeg l (normBoth l p) :=
  ⟨fun s hs => scaled_nonneg hs (h.1 s hs), fun c hc => scaled_nonneg hc (h.2 c hc)⟩

theorem prior_nonneg (p : Prior) (t : S → ℝ) (ht : ∀ s, 0 ≤ t s) : NonNeg l (t, priorOf l p) :=
  ⟨fun s _ => ht s, fun c hc => (priorOf_pos p ((mem_allClaims l).1 hc)).le⟩

theorem iterate_nonneg {A : Type} {P Inv : A → Prop} {step : A → A} {a : A} (h0 : P a)
    (hi : ∀ n, Inv (step^[n] a)) (hs : ∀ q, Inv q → P (step q)) (n : Nat) : P (step^[n] a) := by
  cases n with
  | zero => exact h0
  | succ n => rw [Function.iterate_succ_apply']; exact hs _ (hi n)

theorem sums_nonneg {q : Scores S V X} (hq : PosB l q) : NonNeg l (sumsStep l q) := by
  apply normBoth_nonneg
  refine ⟨fun s hs => (sumTrust_pos hq ((mem_allSources l).1 hs)).le, fun c hc => ?_⟩
  exact (sumBelief_pos (fun s hs => sumTrust_pos hq hs) ((mem_allClaims l).1 hc)).le

theorem avlog_nonneg {q : Scores S V X} (hq : AvInv l q) : NonNeg l (avlogStep l q) := by
  apply normBoth_nonneg
  refine ⟨fun s hs => avT_nonneg hq.1 ((mem_allSources l).1 hs), fun c hc => ?_⟩
  exact Finset.sum_nonneg fun r hr => avT_nonneg hq.1 (mem_sources_of_sourcesOf l hr)

theorem invest_nonneg (g : ℝ) {q : Scores S V X} (hq : PosAll l q) : NonNeg l (investStep l g q) := by
  apply normBoth_nonneg
  have hr : ∀ s ∈ sources l, 0 < regained l q s := fun s hs => regained_pos hq hs
  exact ⟨fun s hs => (hr s ((mem_allSources l).1 hs)).le, fun c hc =>
    (Real.rpow_pos_of_pos (invested_pos hr ((mem_allClaims l).1 hc)) g).le⟩

theorem pooled_nonneg (g : ℝ) {q : Scores S V X} (hq : PosAll l q) : NonNeg l (pooledStep l g q) := by
  apply normBoth_nonneg
  exact ⟨fun s hs => (regained_pos hq ((mem_allSources l).1 hs)).le, fun c hc =>
    (pooledB_pos hq g ((mem_allClaims l).1 hc)).le⟩

theorem tf_nonneg (imp : V → X → X → ℝ) (rho gamma : ℝ) (q : Scores S V X) :
    NonNeg l (tfStep l imp rho gamma q) :=
  ⟨fun s hs => (mean_pos_lt (fun c _ => ⟨sigmoid_pos _, sigmoid_lt _⟩) ((mem_allSources l).1 hs)).1.le,
    fun _ _ => (sigmoid_pos _).le⟩

theorem crh_nonneg (hl : l ≠ []) {eps : ℝ} (he : 0 < eps) (q : Scores S V X) :
    NonNeg l (crhStep l eps q) := by
  refine ⟨fun s hs => he.le.trans (crhT_ge' hl he q ((mem_allSources l).1 hs)), fun c hc => ?_⟩
  refine div_nonneg (Finset.sum_nonneg fun s hs => ?_) (crhT_sum_pos hl he q).le
  exact he.le.trans (crhT_ge' hl he q (mem_sources_of_sourcesOf l hs))

theorem usums_nonneg (p : Prior) (k : Nat) : NonNeg l (usums l (priorOf l p) k) := by
  have h := fun j => usums_pos (l := l) (prior := priorOf l p) (fun c hc => priorOf_pos p hc) j
  refine ⟨fun s hs => ?_, fun c hc => ((h k).1 c ((mem_allClaims l).1 hc)).le⟩
  cases k with
  | zero => exact le_rfl
  | succ k => exact ((h k).2 s ((mem_allSources l).1 hs)).le

theorem usumsResc_nonneg (p : Prior) (k : Nat) :
    NonNeg l ((usumsResc l)^[k] ((fun _ => 0), priorOf l p)) := by
  obtain ⟨a, b, ha, hb, e⟩ := usumsResc_iterate (l := l) (priorOf l p) k
  have h := usums_nonneg (l := l) p k
  rw [e]
  exact ⟨fun s hs => mul_nonneg ha.le (h.1 s hs), fun c hc => mul_nonneg hb.le (h.2 c hc)⟩

/-- The partial results of a sound configuration. -/
theorem sound_iter (hl : l ≠ []) {am : Bool} {f : Option (V → X → X → Option ℝ)}
    {d : Dataset S V X Ex} (hd : Dataset.mk' l am (finImp f) = .ok d) {c : AlgCfg Ex} (hc : Sound l c)
    {fuel : Nat} {clock : Nat → Ex} {st : IterState Ex} {rs : List (Result S V X Ex)}
    (h : c.runIter d fuel clock st = .ok rs) : ∀ r ∈ rs, ∃ p, Reports l r p ∧ NonNeg l p := by
  obtain rfl := mk'_ex hd
  have fin : ∀ {init step cmp Inv}, Implements c l (finImp f) init step cmp Inv → NonNeg l init →
      (∀ q, Inv q → NonNeg l (step q)) → ∀ r ∈ rs, ∃ p, Reports l r p ∧ NonNeg l p := by
    intro init step cmp Inv H h0 hs r hr
    obtain ⟨i, hi⟩ := List.mem_iff_getElem?.1 hr
    exact ⟨_, H.run_iter_reports h i r hi, iterate_nonneg h0 H.inv_iterate hs _⟩
  obtain ⟨k, it, pr⟩ := c
  have hp : ∀ {pr : Option Prior}, pr ≠ none → ∃ p, pr = some p :=
    fun h => Option.ne_none_iff_exists'.1 h
  cases k with
  | sums =>
    obtain ⟨p, rfl⟩ := hp hc
    exact fin (sums_implements _ hl it p) (prior_nonneg p _ fun _ => le_rfl) fun q => sums_nonneg
  | averageLog =>
    obtain ⟨p, rfl⟩ := hp hc.1
    exact fin (avlog_implements _ it p hc.2) (prior_nonneg p _ fun _ => le_rfl) fun q => avlog_nonneg
  | investment g =>
    obtain ⟨h1, y, rfl⟩ := hc
    obtain ⟨p, rfl⟩ := hp h1
    exact fin (invest_implements _ hl it p y) (prior_nonneg p _ fun _ => zero_le_one) fun q => invest_nonneg y
  | pooledInvestment g =>
    obtain ⟨h1, y, rfl⟩ := hc
    obtain ⟨p, rfl⟩ := hp h1
    exact fin (pooled_implements _ hl it p y) (prior_nonneg p _ fun _ => zero_le_one) fun q => pooled_nonneg y
  | truthFinder rho gamma t =>
    obtain ⟨a, b, y, rfl, rfl, rfl, h0, h1⟩ := hc
    exact fin (tf_implements f it pr a b y h0 h1) ⟨fun _ _ => h0, fun _ _ => le_rfl⟩
      fun q _ => tf_nonneg _ _ _ q
  | crh eps =>
    obtain ⟨y, rfl, h0⟩ := hc
    refine fin (crh_implements hl _ it pr y h0) ⟨fun _ _ => le_rfl, fun c _ => ?_⟩
      fun q _ => crh_nonneg hl h0 q
    exact div_nonneg (Nat.cast_nonneg _) (Nat.cast_nonneg _)
  | unboundedSums =>
    obtain ⟨h1, th, rfl⟩ := hc
    obtain ⟨p, rfl⟩ := hp h1
    intro r hr
    obtain ⟨i, hi⟩ := List.mem_iff_getElem?.1 hr
    exact ⟨_, (usums_implements hl (finImp f) (.ord th) p).run_iter_reports h i r hi, usumsResc_nonneg p _⟩

/-- The result of a sound configuration. -/
theorem sound_run (hl : l ≠ []) {am : Bool} {f : Option (V → X → X → Option ℝ)}
    {d : Dataset S V X Ex} (hd : Dataset.mk' l am (finImp f) = .ok d) {c : AlgCfg Ex} (hc : Sound l c)
    {fuel : Nat} {clock : Nat → Ex} {st : IterState Ex} {r : Result S V X Ex}
    (h : c.run d fuel clock st = .ok r) : ∃ p, Reports l r p ∧ NonNeg l p := by
  by_cases hk : c.kind = .unboundedSums
  · obtain ⟨k, it, pr⟩ := c
    subst hk
    obtain ⟨h1, th, rfl⟩ := hc
    obtain ⟨p, rfl⟩ := Option.ne_none_iff_exists'.1 h1
    obtain ⟨k, -, hr, -⟩ := C37_unbounded_sums l am (finImp f) d hd hl th p fuel clock st r h
    exact ⟨_, hr, fun _ _ => Nat.cast_nonneg _, fun _ _ => Nat.cast_nonneg _⟩
  · obtain rfl := mk'_ex hd
    have fin : ∀ {init step cmp Inv}, Implements c l (finImp f) init step cmp Inv → NonNeg l init →
        (∀ q, Inv q → NonNeg l (step q)) → ∃ p, Reports l r p ∧ NonNeg l p := by
      intro init step cmp Inv H h0 hs
      obtain ⟨k, -, hr⟩ := H.run_reports hk h
      exact ⟨_, hr, iterate_nonneg h0 H.inv_iterate hs _⟩
    obtain ⟨k, it, pr⟩ := c
    have hp : ∀ {pr : Option Prior}, pr ≠ none → ∃ p, pr = some p :=
      fun h => Option.ne_none_iff_exists'.1 h
    cases k with
    | sums =>
      obtain ⟨p, rfl⟩ := hp hc
      exact fin (sums_implements _ hl it p) (prior_nonneg p _ fun _ => le_rfl) fun q => sums_nonneg
    | averageLog =>
      obtain ⟨p, rfl⟩ := hp hc.1
      exact fin (avlog_implements _ it p hc.2) (prior_nonneg p _ fun _ => le_rfl) fun q => avlog_nonneg
    | investment g =>
      obtain ⟨h1, y, rfl⟩ := hc
      obtain ⟨p, rfl⟩ := hp h1
      exact fin (invest_implements _ hl it p y) (prior_nonneg p _ fun _ => zero_le_one) fun q => invest_nonneg y
    | pooledInvestment g =>
      obtain ⟨h1, y, rfl⟩ := hc
      obtain ⟨p, rfl⟩ := hp h1
      exact fin (pooled_implements _ hl it p y) (prior_nonneg p _ fun _ => zero_le_one) fun q => pooled_nonneg y
    | truthFinder rho gamma t =>
      obtain ⟨a, b, y, rfl, rfl, rfl, h0, h1⟩ := hc
      exact fin (tf_implements f it pr a b y h0 h1) ⟨fun _ _ => h0, fun _ _ => le_rfl⟩
        fun q _ => tf_nonneg _ _ _ q
    | crh eps =>
      obtain ⟨y, rfl, h0⟩ := hc
      refine fin (crh_implements hl _ it pr y h0) ⟨fun _ _ => le_rfl, fun c _ => ?_⟩
        fun q _ => crh_nonneg hl h0 q
      exact div_nonneg (Nat.cast_nonneg _) (Nat.cast_nonneg _)
    | unboundedSums => exact absurd rfl hk

end TD
