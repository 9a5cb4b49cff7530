import Verif.Props.Dominance
import Verif.Props.ConvergenceAvlog
import Verif.Spec.Coherence
/-!
# C80: coherence
-/

namespace TD
open Spec Ex Filter Topology
attribute [-instance] instBEqProd

variable {S V X : Type} [DecidableEq S] [DecidableEq V] [DecidableEq X] {l : List (S × V × X)}

theorem Spec.Below.sum_lt {A : Type} {F G : Finset A} {g : A → ℝ} (h : Below F G g) :
    ∑ a ∈ F, g a < ∑ a ∈ G, g a := by
  obtain ⟨φ, hφ, hle, hlt⟩ := h
  have e : ∑ a ∈ F, g (φ a) = ∑ a ∈ G, g a :=
    Finset.sum_nbij φ (fun a ha => hφ.mapsTo ha) hφ.injOn hφ.surjOn fun _ _ => rfl
  rw [← e]
  exact Finset.sum_lt_sum hle hlt

theorem Spec.Below.card {A : Type} {F G : Finset A} {g : A → ℝ} (h : Below F G g) : F.card = G.card := by
  obtain ⟨φ, hφ, -, -⟩ := h
  exact Finset.card_nbij φ (fun a ha => hφ.mapsTo ha) hφ.injOn hφ.surjOn

theorem Spec.Below.congr {A : Type} {F G : Finset A} {g g' : A → ℝ} (h : Below F G g)
    (hle : ∀ a ∈ F, ∀ b ∈ G, g a ≤ g b → g' a ≤ g' b) (hlt : ∀ a ∈ F, ∀ b ∈ G, g a < g b → g' a < g' b) :
    Below F G g' := by
  obtain ⟨φ, hφ, h1, a, ha, h2⟩ := h
  exact ⟨φ, hφ, fun a ha => hle a ha _ (hφ.mapsTo ha) (h1 a ha), a, ha, hlt a ha _ (hφ.mapsTo ha) h2⟩

/-- Beliefs that are proportional to the sum of the trusts. -/
theorem claims_coherent_of {p : Scores S V X} {a b : ℝ} (ha : 0 < a) (hb : 0 ≤ b)
    (h : ∀ c ∈ allClaims l, p.2 c * b = a * sumBelief l p.1 c) : ClaimsCoherentScores l p := by
  intro c hc c' hc' hbel
  refine lt_of_mul_lt_mul_right ?_ hb
  rw [h c hc, h c' hc']
  exact mul_lt_mul_of_pos_left hbel.sum_lt ha

/-- Trust proportional to the sum of the beliefs, with a positive factor that only depends on
the number of claims. -/
theorem sources_coherent_of {p : Scores S V X} {w : ℝ → ℝ} {a : ℝ} (ha : 0 ≤ a)
    (h : ∀ s ∈ allSources l, 0 < w (nClaims l s) ∧ p.1 s * a = w (nClaims l s) * sumTrust l p.2 s) :
    SourcesCoherentScores l p := by
  intro s hs s' hs' hbel
  refine lt_of_mul_lt_mul_right ?_ ha
  have hn : nClaims l s' = nClaims l s := by
    unfold nClaims; rw [hbel.card]
  rw [(h s hs).2, (h s' hs').2, hn]
  exact mul_lt_mul_of_pos_left hbel.sum_lt (h s hs).1

theorem scaled_mul_top {A : Type} {F : Finset A} {f : A → ℝ} (hf : ∀ a ∈ F, 0 ≤ f a) {a : A} (ha : a ∈ F) :
    scaled F f a * top F f = f a := by
  unfold scaled
  rcases eq_or_ne (top F f) 0 with h | h
  · rw [h, mul_zero]
    have := le_top (f := f) ha
    rw [h] at this
    exact (le_antisymm this (hf a ha)).symm
  · exact div_mul_cancel₀ _ h

/-- After normalisation, belief is proportional to the sum of the trusts. -/
theorem norm_belief {t : S → ℝ} (ht : ∀ s ∈ allSources l, 0 ≤ t s) {c : V × X} (hc : c ∈ allClaims l) :
    (normBoth l (t, sumBelief l t)).2 c * top (allClaims l) (sumBelief l t) =
      top (allSources l) t * sumBelief l (normBoth l (t, sumBelief l t)).1 c := by
  have h2 : ∀ c ∈ allClaims l, 0 ≤ sumBelief l t c := fun c _ =>
    Finset.sum_nonneg fun s hs => ht s ((mem_allSources l).2 (mem_sources_of_sourcesOf l hs))
  rw [normBoth, scaled_mul_top h2 hc, sumBelief, sumBelief, Finset.mul_sum]
  refine Finset.sum_congr rfl fun s hs => ?_
  rw [mul_comm, scaled_mul_top ht ((mem_allSources l).2 (mem_sources_of_sourcesOf l hs))]

theorem norm_coherent {t : S → ℝ} (ht : ∀ s ∈ allSources l, 0 ≤ t s) (htop : 0 < top (allSources l) t) :
    ClaimsCoherentScores l (normBoth l (t, sumBelief l t)) := by
  refine claims_coherent_of htop ?_ fun c hc => norm_belief ht hc
  unfold top
  split
  · rename_i h
    obtain ⟨c, hc⟩ := h
    refine le_trans ?_ (Finset.le_sup' _ hc)
    exact Finset.sum_nonneg fun s hs => ht s ((mem_allSources l).2 (mem_sources_of_sourcesOf l hs))
  · exact le_rfl

/-- Algorithms whose beliefs are sums of trusts. -/
def Additive : Kind Ex → Prop
  | .sums | .averageLog | .crh _ | .unboundedSums => True
  | _ => False

theorem sound_coherent (hl : l ≠ []) {f : Option (V → X → X → Option ℝ)} {c : AlgCfg Ex} (hc : Sound l c)
    (hs : Additive c.kind) (hk : c.kind ≠ .unboundedSums) :
    ∃ init step cmp Inv, Implements c l (finImp f) init step cmp Inv ∧
      ∀ p, Inv p → ClaimsCoherentScores l (step p) := by
  obtain ⟨k, it, pr⟩ := c
  have hp : ∀ {pr : Option Prior}, pr ≠ none → ∃ p, pr = some p :=
    fun h => Option.ne_none_iff_exists'.1 h
  cases k with
  | sums =>
    obtain ⟨p, rfl⟩ := hp hc
    refine ⟨_, _, _, _, sums_implements _ hl it p, fun q hq => ?_⟩
    have ht : ∀ s ∈ sources l, 0 < sumTrust l q.2 s := fun s hs => sumTrust_pos hq hs
    exact norm_coherent (fun s hs => (ht s ((mem_allSources l).1 hs)).le) (topS_pos hl ht)
  | averageLog =>
    obtain ⟨p, rfl⟩ := hp hc.1
    refine ⟨_, _, _, _, avlog_implements _ it p hc.2, fun q hq => ?_⟩
    exact norm_coherent (t := avT l q.2) (fun s hs => avT_nonneg hq.1 ((mem_allSources l).1 hs)) (avlog_top hc.2 hq).1
  | crh eps =>
    obtain ⟨y, rfl, h0⟩ := hc
    refine ⟨_, _, _, _, crh_implements hl _ it pr y h0, fun q _ => ?_⟩
    have hpos := crhT_sum_pos hl h0 q
    refine claims_coherent_of one_pos hpos.le fun c _ => ?_
    rw [one_mul]
    exact div_mul_cancel₀ _ hpos.ne'
  | unboundedSums => exact absurd rfl hk
  | investment g => exact hs.elim
  | pooledInvestment g => exact hs.elim
  | truthFinder rho gamma t => exact hs.elim

theorem rank_lt_rank {A : Type} {F : Finset A} {g : A → ℝ} {a b : A} (ha : a ∈ F) :
    rank F g a < rank F g b ↔ g a < g b := by
  constructor
  · intro h
    by_contra hc
    exact absurd (rank_le_rank (F := F) (not_lt.1 hc)) (not_le.2 h)
  · intro h
    unfold rank
    refine Finset.card_lt_card ⟨fun y hy => ?_, fun hsub => ?_⟩
    · rw [Finset.mem_filter] at hy ⊢
      exact ⟨hy.1, hy.2.trans h⟩
    · have := hsub (Finset.mem_filter.2 ⟨Finset.mem_image_of_mem g ha, h⟩)
      exact lt_irrefl _ (Finset.mem_filter.1 this).2

theorem rank_le_iff {A : Type} {F : Finset A} {g : A → ℝ} {a b : A} (hb : b ∈ F) :
    rank F g a ≤ rank F g b ↔ g a ≤ g b := by
  rw [← not_lt, rank_lt_rank hb, not_lt]

theorem usums_coherent (prior : V × X → ℝ) (k : Nat) : ClaimsCoherentScores l (usums l prior (k + 1)) := by
  refine claims_coherent_of one_pos zero_le_one fun c _ => ?_
  rw [usums_succ, one_mul, mul_one]
  rfl

theorem ClaimsCoherentScores.ranks {p : Scores S V X} (h : ClaimsCoherentScores l p) :
    ClaimsCoherentScores l (ranks l p) := by
  intro c hc c' hc' hbel
  refine Nat.cast_lt.2 ((rank_lt_rank hc).2 (h c hc c' hc' (hbel.congr (fun a _ b hb hab => ?_) fun a ha b _ hab => ?_)))
  · exact (rank_le_iff ((mem_allSources l).2 (mem_sources_of_sourcesOf l hb))).1 (Nat.cast_le.1 hab)
  · exact (rank_lt_rank ((mem_allSources l).2 (mem_sources_of_sourcesOf l ha))).1 (Nat.cast_lt.1 hab)

theorem SourcesCoherentScores.ranks {p : Scores S V X} (h : SourcesCoherentScores l p) :
    SourcesCoherentScores l (ranks l p) := by
  intro s hs s' hs' hbel
  refine Nat.cast_lt.2 ((rank_lt_rank hs).2 (h s hs s' hs' (hbel.congr (fun a _ b hb hab => ?_) fun a ha b _ hab => ?_)))
  · exact (rank_le_iff ((mem_allClaims l).2 (mem_claims_of_claimsOf l hb))).1 (Nat.cast_le.1 hab)
  · exact (rank_lt_rank ((mem_allClaims l).2 (mem_claims_of_claimsOf l ha))).1 (Nat.cast_lt.1 hab)

theorem ClaimsCoherentScores.smul {p : Scores S V X} (h : ClaimsCoherentScores l p) {a b : ℝ} (ha : 0 < a) (hb : 0 < b) :
    ClaimsCoherentScores l ((fun s => a * p.1 s), fun c => b * p.2 c) := by
  intro c hc c' hc' hbel
  refine mul_lt_mul_of_pos_left (h c hc c' hc' (hbel.congr (fun x _ y _ hxy => ?_) fun x _ y _ hxy => ?_)) hb
  · exact le_of_mul_le_mul_left hxy ha
  · exact lt_of_mul_lt_mul_left hxy ha.le

/-- **C80.** Sums, AverageLog, CRH and UnboundedSums, after at least one iteration: if the sources
of one claim can be paired off with those of another such that each is at most as trusted as its
partner and one is less trusted, then the first claim has less belief. -/
theorem C80_claims (hl : l ≠ []) {am : Bool} {f : Option (V → X → X → Option ℝ)} {d : Dataset S V X Ex}
    (hd : Dataset.mk' l am (finImp f) = .ok d) {c : AlgCfg Ex} (hc : Sound l c)
    (hs : (c.kind = .sums ∨ c.kind = .averageLog ∨ ∃ eps, c.kind = .crh eps) ∨ c.kind = .unboundedSums)
    {fuel : Nat} {clock : Nat → Ex} {st : IterState Ex} {r : Result S V X Ex}
    (h : c.run d fuel clock st = .ok r) {k : Nat} (hk : r.iterations = some k) (hk1 : 1 ≤ k) :
    ClaimsCoherent l r := by
  obtain ⟨j, rfl⟩ : ∃ j, k = j + 1 := ⟨k - 1, by omega⟩
  have ha : Additive c.kind := by
    rcases hs with (h | h | ⟨_, h⟩) | h <;> (rw [h]; trivial)
  by_cases hu : c.kind = .unboundedSums
  · obtain ⟨kd, it, pr⟩ := c
    subst hu
    obtain ⟨h1, th, rfl⟩ := hc
    obtain ⟨p, rfl⟩ := Option.ne_none_iff_exists'.1 h1
    obtain ⟨k, e, hr, -⟩ := C37_unbounded_sums l am (finImp f) d hd hl th p fuel clock st r h
    rw [hk] at e
    cases e
    exact ⟨_, hr, ClaimsCoherentScores.ranks (usums_coherent _ _)⟩
  · obtain rfl := mk'_ex hd
    obtain ⟨init, step, cmp, Inv, H, hcoh⟩ := sound_coherent hl hc ha hu
    obtain ⟨k, e, hr⟩ := H.run_reports hu h
    rw [hk] at e
    cases e
    refine ⟨_, hr, ?_⟩
    rw [Function.iterate_succ_apply']
    exact hcoh _ (H.inv_iterate j)

/-- **C80.** The same for the partial results of `run_iter`. -/
theorem C80_claims_iter (hl : l ≠ []) {am : Bool} {f : Option (V → X → X → Option ℝ)} {d : Dataset S V X Ex}
    (hd : Dataset.mk' l am (finImp f) = .ok d) {c : AlgCfg Ex} (hc : Sound l c)
    (hs : (c.kind = .sums ∨ c.kind = .averageLog ∨ ∃ eps, c.kind = .crh eps) ∨ c.kind = .unboundedSums)
    {fuel : Nat} {clock : Nat → Ex} {st : IterState Ex} {rs : List (Result S V X Ex)}
    (h : c.runIter d fuel clock st = .ok rs) {i : Nat} {r : Result S V X Ex} (hi : rs[i]? = some r)
    (hi1 : 1 ≤ i ∨ ∃ eps, c.kind = .crh eps) : ClaimsCoherent l r := by
  have ha : Additive c.kind := by
    rcases hs with (h | h | ⟨_, h⟩) | h <;> (rw [h]; trivial)
  by_cases hu : c.kind = .unboundedSums
  · obtain ⟨kd, it, pr⟩ := c
    subst hu
    obtain ⟨h1, th, rfl⟩ := hc
    obtain ⟨p, rfl⟩ := Option.ne_none_iff_exists'.1 h1
    obtain ⟨j, rfl⟩ : ∃ j, i = j + 1 := by
      rcases hi1 with hi1 | ⟨_, h⟩
      · exact ⟨i - 1, by omega⟩
      · cases h
    obtain ⟨a, b, ha, hb, hr⟩ := C37_partial_results l am (finImp f) d hd hl (.ord th) p fuel clock st rs h (j + 1) r hi
    exact ⟨_, hr, ClaimsCoherentScores.smul (usums_coherent _ _) ha hb⟩
  · obtain rfl := mk'_ex hd
    obtain ⟨init, step, cmp, Inv, H, hcoh⟩ := sound_coherent hl hc ha hu
    have hr := H.run_iter_reports h i r hi
    obtain ⟨j, hj⟩ : ∃ j, (if c.kind.logsInit then i else i + 1) = j + 1 := by
      rcases hi1 with hi1 | ⟨eps, h⟩
      · split
        · exact ⟨i - 1, by omega⟩
        · exact ⟨i, rfl⟩
      · rw [h]; exact ⟨i, rfl⟩
    rw [hj, Function.iterate_succ_apply'] at hr
    exact ⟨_, hr, hcoh _ (H.inv_iterate j)⟩

theorem tf_coherent (imp : V → X → X → ℝ) (rho gamma : ℝ) (q : Scores S V X) :
    SourcesCoherentScores l (tfStep l imp rho gamma q) := by
  intro s hs s' hs' hbel
  have hn : nClaims l s' = nClaims l s := by
    unfold nClaims; rw [hbel.card]
  have hpos : 0 < nClaims l s := by
    have := (claimsOf_nonempty l ((mem_allSources l).1 hs)).card_pos
    unfold nClaims; exact_mod_cast this
  show (∑ c ∈ claimsOf l s, (tfStep l imp rho gamma q).2 c) / nClaims l s <
    (∑ c ∈ claimsOf l s', (tfStep l imp rho gamma q).2 c) / nClaims l s'
  rw [hn]
  exact div_lt_div_of_pos_right hbel.sum_lt hpos

/-- **C80.** TruthFinder, with any implications, after at least one iteration: if the claims of one
source can be paired off with those of another such that each is at most as believed as its partner
and one is less believed, then the first source has less trust. -/
theorem C80_sources_truthfinder (hl : l ≠ []) {am : Bool} {f : Option (V → X → X → Option ℝ)} {d : Dataset S V X Ex}
    (hd : Dataset.mk' l am (finImp f) = .ok d) {c : AlgCfg Ex} (hc : Sound l c)
    (hs : ∃ rho gamma t, c.kind = .truthFinder rho gamma t)
    {fuel : Nat} {clock : Nat → Ex} {st : IterState Ex} {r : Result S V X Ex}
    (h : c.run d fuel clock st = .ok r) {k : Nat} (hk : r.iterations = some k) (hk1 : 1 ≤ k) :
    SourcesCoherent l r := by
  obtain ⟨j, rfl⟩ : ∃ j, k = j + 1 := ⟨k - 1, by omega⟩
  obtain ⟨kd, it, pr⟩ := c
  obtain ⟨rho, gamma, t, hs⟩ := hs
  simp only at hs
  subst hs
  obtain ⟨a, b, y, rfl, rfl, rfl, h0, h1⟩ := hc
  obtain rfl := mk'_ex hd
  have H := tf_implements (l := l) f it pr a b y h0 h1
  obtain ⟨k, e, hr⟩ := H.run_reports nofun h
  rw [hk] at e
  cases e
  refine ⟨_, hr, ?_⟩
  rw [Function.iterate_succ_apply']
  exact tf_coherent _ _ _ _

/-- **C80.** UnboundedSums, for every large enough threshold: the result is coherent in both
respects. -/
theorem C80_usums (hl : l ≠ []) {am : Bool} {f : Option (V → X → X → Option Ex)} {d : Dataset S V X Ex}
    (hd : Dataset.mk' l am f = .ok d) (p : Prior) :
    ∃ N : Nat, ∀ (th : Int), (N : Int) ≤ th → ∀ fuel clock st r,
      (⟨.unboundedSums, .ord th, some p⟩ : AlgCfg Ex).run d fuel clock st = .ok r →
      ClaimsCoherent l r ∧ SourcesCoherent l r := by
  obtain ⟨N, hN⟩ := usums_settles l (priorOf l p)
  refine ⟨N + 1, fun th hth fuel clock st r hr => ?_⟩
  obtain ⟨k, -, hrep, hset, -⟩ := C37_unbounded_sums l am f d hd hl th p fuel clock st r hr
  have hk : N + 1 ≤ k := by
    have := hset.1
    omega
  obtain ⟨j, rfl⟩ : ∃ j, k = j + 1 := ⟨k - 1, by omega⟩
  refine ⟨⟨_, hrep, ClaimsCoherentScores.ranks (usums_coherent _ _)⟩, _, hrep, SourcesCoherentScores.ranks ?_⟩
  intro s hs s' hs' hbel
  rw [hN (j + 1) (by omega) s hs s' hs', usums_succ]
  exact hbel.sum_lt

/-! ### Limits -/

/-- What the limits of normalised iterations satisfy. -/
theorem limit_fixed {w : S → ℝ} (hw : ∀ s ∈ allSources l, 0 ≤ w s) {P : Nat → Scores S V X} {q : Scores S V X}
    (hstep : ∀ k, P (k + 1) = normBoth l ((fun s => w s * sumTrust l (P k).2 s),
      sumBelief l fun s => w s * sumTrust l (P k).2 s))
    (hnn : ∀ c ∈ allClaims l, 0 ≤ (P 0).2 c)
    (h1 : ∀ s ∈ allSources l, Tendsto (fun k => (P k).1 s) atTop (𝓝 (q.1 s)))
    (h2 : ∀ c ∈ allClaims l, Tendsto (fun k => (P k).2 c) atTop (𝓝 (q.2 c)))
    (hq : ∃ c ∈ allClaims l, q.2 c = 1) :
    ∃ a b : ℝ, 0 < a ∧ 0 ≤ b ∧ (∀ s ∈ allSources l, q.1 s * a = w s * sumTrust l q.2 s) ∧
      ∀ c ∈ allClaims l, q.2 c * b = a * sumBelief l q.1 c := by
  have hT : ∀ {b : V × X → ℝ}, (∀ c ∈ allClaims l, 0 ≤ b c) → ∀ s ∈ allSources l, 0 ≤ w s * sumTrust l b s :=
    fun hb s hs => mul_nonneg (hw s hs) (Finset.sum_nonneg fun c hc =>
      hb c ((mem_allClaims l).2 (mem_claims_of_claimsOf l hc)))
  have hB : ∀ {t : S → ℝ}, (∀ s ∈ allSources l, 0 ≤ t s) → ∀ c ∈ allClaims l, 0 ≤ sumBelief l t c :=
    fun ht c _ => Finset.sum_nonneg fun s hs => ht s ((mem_allSources l).2 (mem_sources_of_sourcesOf l hs))
  have hnn : ∀ k, ∀ c ∈ allClaims l, 0 ≤ (P k).2 c := by
    intro k
    cases k with
    | zero => exact hnn
    | succ k =>
      induction k with
      | zero => rw [hstep]; exact fun c hc => scaled_nonneg hc (hB (hT hnn) c hc)
      | succ k ih => rw [hstep]; exact fun c hc => scaled_nonneg hc (hB (hT ih) c hc)
  have hq0 : ∀ c ∈ allClaims l, 0 ≤ q.2 c := fun c hc => ge_of_tendsto' (h2 c hc) fun k => hnn k c hc
  -- limits of the unnormalised scores
  have lT : ∀ s ∈ allSources l, Tendsto (fun k => w s * sumTrust l (P k).2 s) atTop (𝓝 (w s * sumTrust l q.2 s)) :=
    fun s _ => (tendsto_finsetSum _ fun c hc => h2 c ((mem_allClaims l).2 (mem_claims_of_claimsOf l hc))).const_mul _
  have lB : ∀ c ∈ allClaims l, Tendsto (fun k => sumBelief l (fun s => w s * sumTrust l (P k).2 s) c) atTop
      (𝓝 (sumBelief l (fun s => w s * sumTrust l q.2 s) c)) :=
    fun c _ => tendsto_finsetSum _ fun s hs => lT s ((mem_allSources l).2 (mem_sources_of_sourcesOf l hs))
  let a := top (allSources l) fun s => w s * sumTrust l q.2 s
  let b := top (allClaims l) (sumBelief l fun s => w s * sumTrust l q.2 s)
  have eT : ∀ s ∈ allSources l, q.1 s * a = w s * sumTrust l q.2 s := by
    intro s hs
    have e : ∀ k, (P (k + 1)).1 s * top (allSources l) (fun s => w s * sumTrust l (P k).2 s) =
        w s * sumTrust l (P k).2 s := fun k => by
      rw [hstep]; exact scaled_mul_top (hT (hnn k)) hs
    have l1 := ((tendsto_add_atTop_iff_nat 1).2 (h1 s hs)).mul (tendsto_top lT)
    simp only [e] at l1
    exact tendsto_nhds_unique l1 (lT s hs)
  have eB : ∀ c ∈ allClaims l, q.2 c * b = sumBelief l (fun s => w s * sumTrust l q.2 s) c := by
    intro c hc
    have e : ∀ k, (P (k + 1)).2 c * top (allClaims l) (sumBelief l fun s => w s * sumTrust l (P k).2 s) =
        sumBelief l (fun s => w s * sumTrust l (P k).2 s) c := fun k => by
      rw [hstep]; exact scaled_mul_top (hB (hT (hnn k))) hc
    have l1 := ((tendsto_add_atTop_iff_nat 1).2 (h2 c hc)).mul (tendsto_top lB)
    simp only [e] at l1
    exact tendsto_nhds_unique l1 (lB c hc)
  obtain ⟨c0, hc0, e0⟩ := hq
  have hb : 0 ≤ b := by
    refine le_trans ?_ (le_top hc0)
    exact hB (hT hq0) c0 hc0
  have ha : 0 < a := by
    -- some source of `c0` has positive weight
    have hex : ∃ s ∈ sourcesOf l c0, 0 < w s := by
      by_contra hno
      push Not at hno
      have hz : ∀ s ∈ sourcesOf l c0, w s = 0 := fun s hs =>
        le_antisymm (hno s hs) (hw s ((mem_allSources l).2 (mem_sources_of_sourcesOf l hs)))
      have hP : ∀ k, (P (k + 1)).2 c0 = 0 := fun k => by
        rw [hstep]
        show sumBelief l _ c0 / _ = 0
        rw [sumBelief, Finset.sum_eq_zero fun s hs => by rw [hz s hs, zero_mul], zero_div]
      have l1 := (tendsto_add_atTop_iff_nat 1).2 (h2 c0 hc0)
      simp only [hP] at l1
      have := tendsto_nhds_unique l1 tendsto_const_nhds
      rw [e0] at this
      exact one_ne_zero this
    obtain ⟨s, hs, hws⟩ := hex
    have hs' := (mem_allSources l).2 (mem_sources_of_sourcesOf l hs)
    refine top_pos hs' (mul_pos hws ?_)
    refine Finset.sum_pos' (fun c hc => hq0 c ((mem_allClaims l).2 (mem_claims_of_claimsOf l hc))) ⟨c0, ?_, ?_⟩
    · exact (mem_claimsOf l).2 ((mem_sourcesOf l).1 hs)
    · rw [e0]; exact one_pos
  refine ⟨a, b, ha, hb, eT, fun c hc => ?_⟩
  rw [eB c hc, sumBelief, sumBelief, Finset.mul_sum]
  refine Finset.sum_congr rfl fun s hs => ?_
  rw [← eT s ((mem_allSources l).2 (mem_sources_of_sourcesOf l hs)), mul_comm]

/-- **C80.** The scores to which Sums converges (C39) are coherent in both respects. -/
theorem C80_sums_limit (hl : l ≠ []) (p : Prior) {q : Scores S V X}
    (h1 : ∀ s ∈ allSources l, Tendsto (fun k => ((sumsStep l)^[k] ((fun _ => 0), priorOf l p)).1 s) atTop (𝓝 (q.1 s)))
    (h2 : ∀ c ∈ allClaims l, Tendsto (fun k => ((sumsStep l)^[k] ((fun _ => 0), priorOf l p)).2 c) atTop (𝓝 (q.2 c))) :
    ClaimsCoherentScores l q ∧ SourcesCoherentScores l q := by
  obtain ⟨q', h1', h2', -, c, hc, ec⟩ := C39_converges l hl p
  have hq : ∃ c ∈ allClaims l, q.2 c = 1 := ⟨c, hc, by rw [← ec]; exact tendsto_nhds_unique (h2 c hc) (h2' c hc)⟩
  obtain ⟨a, b, ha, hb, eT, eB⟩ := limit_fixed (l := l) (w := fun _ => 1)
    (P := fun k => (sumsStep l)^[k] ((fun _ => 0), priorOf l p)) (fun _ _ => zero_le_one)
    (fun k => by simp only [one_mul]; rw [Function.iterate_succ_apply']; rfl)
    (fun c hc => (priorOf_pos p ((mem_allClaims l).1 hc)).le) h1 h2 hq
  exact ⟨claims_coherent_of ha hb eB, sources_coherent_of (w := fun _ => 1) ha.le fun s hs => ⟨one_pos, eT s hs⟩⟩

/-- **C80.** The scores to which AverageLog converges (C71): claims are coherent, and so are
sources with at least two claims. -/
theorem C80_avlog_limit (hm : ∃ s, 2 ≤ (claimsOf l s).card) (p : Prior) {q : Scores S V X}
    (h1 : ∀ s ∈ allSources l, Tendsto (fun k => ((avlogStep l)^[k] ((fun _ => 0), priorOf l p)).1 s) atTop (𝓝 (q.1 s)))
    (h2 : ∀ c ∈ allClaims l, Tendsto (fun k => ((avlogStep l)^[k] ((fun _ => 0), priorOf l p)).2 c) atTop (𝓝 (q.2 c))) :
    ClaimsCoherentScores l q ∧ ∀ s ∈ allSources l, ∀ s' ∈ allSources l, 2 ≤ (claimsOf l s).card →
      Below (claimsOf l s) (claimsOf l s') q.2 → q.1 s < q.1 s' := by
  obtain ⟨q', h1', h2', -, c, hc, ec⟩ := C71_converges l hm p
  have hq : ∃ c ∈ allClaims l, q.2 c = 1 := ⟨c, hc, by rw [← ec]; exact tendsto_nhds_unique (h2 c hc) (h2' c hc)⟩
  obtain ⟨a, b, ha, hb, eT, eB⟩ := limit_fixed (l := l) (w := weight l)
    (P := fun k => (avlogStep l)^[k] ((fun _ => 0), priorOf l p)) (fun s hs => weight_nonneg ((mem_allSources l).1 hs))
    (fun k => by rw [Function.iterate_succ_apply']; rfl)
    (fun c hc => (priorOf_pos p ((mem_allClaims l).1 hc)).le) h1 h2 hq
  refine ⟨claims_coherent_of ha hb eB, fun s hs s' hs' h2 hbel => ?_⟩
  refine lt_of_mul_lt_mul_right ?_ ha.le
  have hn : weight l s' = weight l s := by
    unfold weight nClaims; rw [hbel.card]
  rw [eT s hs, eT s' hs', hn]
  refine mul_lt_mul_of_pos_left hbel.sum_lt (div_pos (Real.log_pos ?_) ?_)
  · unfold nClaims; exact_mod_cast h2
  · unfold nClaims; exact_mod_cast (by omega : 0 < (claimsOf l s).card)

/-! ### Too few iterations -/

/-- Source 1 makes a claim of its own; sources 2 and 3 make the same claim. -/
def lonely : List (Nat × Nat × Nat) := [(1, 0, 0), (2, 1, 1), (3, 1, 1)]

theorem below_single {A : Type} [DecidableEq A] {a b : A} {g : A → ℝ} (h : g a < g b) :
    Below ({a} : Finset A) {b} g := by
  refine ⟨fun _ => b, ?_, ?_, a, by simp, h⟩
  · rw [Finset.coe_singleton, Finset.coe_singleton]
    exact Set.bijOn_singleton.2 rfl
  · intro x hx
    rw [Finset.mem_singleton] at hx
    subst hx
    exact h.le

theorem lonely_step : sumTrust lonely priorFixed 1 = 1 / 2 ∧ sumTrust lonely priorFixed 2 = 1 / 2 ∧
    sumTrust lonely priorFixed 3 = 1 / 2 := by
  have e1 : claimsOf lonely 1 = {(0, 0)} := by decide
  have e2 : claimsOf lonely 2 = {(1, 1)} := by decide
  have e3 : claimsOf lonely 3 = {(1, 1)} := by decide
  simp [sumTrust, e1, e2, e3, priorFixed]

/-- **C80.** Sources need not be coherent when Sums is stopped too early: after one iteration
(trust still reflects the prior beliefs only) source 1 has the same trust as source 2, although
the only claim of source 1 is believed less than the only claim of source 2. -/
theorem C80_one_iteration (clock : Nat → Ex) :
    ∃ d r, Dataset.mk' lonely false none = .ok d ∧
      (⟨.sums, .fixed 1, some .fixed⟩ : AlgCfg Ex).run d 100 clock = .ok r ∧
      ClaimsCoherent lonely r ∧ ¬ SourcesCoherent lonely r := by
  obtain ⟨d, hd⟩ := exists_dataset lonely (by decide)
  have hd' := hd
  obtain rfl := mk'_ex hd
  have H := sums_implements (l := lonely) none (by simp [lonely]) (.fixed 1) .fixed
  obtain ⟨r, h1, h2, hr⟩ := H.run_fixed nofun (by simp [lonely]) (N := 1) rfl (fuel := 100) (by norm_num) clock {}
  have hcoh : ClaimsCoherent lonely r := C80_claims (f := none) (by simp [lonely]) hd' (c := ⟨.sums, .fixed 1, some .fixed⟩)
    (show (some Prior.fixed) ≠ none by simp) (.inl (.inl rfl)) h1 h2 le_rfl
  refine ⟨_, r, hd', h1, hcoh, ?_⟩
  rintro ⟨p, hp, hco⟩
  have eS : allSources lonely = {1, 2, 3} := by decide
  have eC : allClaims lonely = {(0, 0), (1, 1)} := by decide
  obtain ⟨t1, t2, t3⟩ := lonely_step
  have f1 : sourcesOf lonely (0, 0) = {1} := by decide
  have f2 : sourcesOf lonely (1, 1) = {2, 3} := by decide
  have b1 : sumBelief lonely (sumTrust lonely priorFixed) (0, 0) = 1 / 2 := by simp [sumBelief, f1, t1]
  have b2 : sumBelief lonely (sumTrust lonely priorFixed) (1, 1) = 1 := by
    rw [sumBelief, f2, Finset.sum_pair (by decide), t2, t3]; norm_num
  have hq : ∀ (s : Nat), s ∈ allSources lonely → p.1 s = scaled (allSources lonely) (sumTrust lonely priorFixed) s := by
    intro s hs
    have e1 := hp.1 s
    rw [hr.1 s, if_pos hs, if_pos hs, Option.some.injEq, fin_inj] at e1
    exact e1.symm
  have hqc : ∀ c, c ∈ allClaims lonely → p.2 c = scaled (allClaims lonely) (sumBelief lonely (sumTrust lonely priorFixed)) c := by
    rintro ⟨v, x⟩ hc
    have e1 := hp.2 v x
    rw [hr.2 v x, if_pos hc, if_pos hc, Option.some.injEq, fin_inj] at e1
    exact e1.symm
  have htop : 0 < top (allClaims lonely) (sumBelief lonely (sumTrust lonely priorFixed)) :=
    top_pos (a := (1, 1)) (by decide) (by rw [b2]; exact one_pos)
  have hlt := hco 1 (by decide) 2 (by decide) (by
    have e1 : claimsOf lonely 1 = {(0, 0)} := by decide
    have e2 : claimsOf lonely 2 = {(1, 1)} := by decide
    rw [e1, e2]
    apply below_single
    rw [hqc _ (by decide), hqc _ (by decide)]
    refine div_lt_div_of_pos_right ?_ htop
    rw [b1, b2]; norm_num)
  rw [hq 1 (by decide), hq 2 (by decide)] at hlt
  simp only [scaled, t1, t2] at hlt
  exact lt_irrefl _ hlt

/-! ### Examples -/

/-- Any result of Sums after one iteration on these triples: source 2 has less trust than source 1,
so that its claim is less believed than those of source 1. -/
example (p : Scores Nat Nat Nat) (h : p = sumsStep [(1, 0, 0), (1, 1, 1), (2, 2, 2)] ((fun _ => 0), priorFixed)) :
    Below (sourcesOf [(1, 0, 0), (1, 1, 1), (2, 2, 2)] (2, 2)) (sourcesOf [(1, 0, 0), (1, 1, 1), (2, 2, 2)] (0, 0)) p.1 := by
  have e1 : sourcesOf [(1, 0, 0), (1, 1, 1), (2, 2, 2)] (2, 2) = {2} := by decide
  have e2 : sourcesOf [(1, 0, 0), (1, 1, 1), (2, 2, 2)] (0, 0) = {1} := by decide
  have c1 : claimsOf [(1, 0, 0), (1, 1, 1), (2, 2, 2)] 1 = {(0, 0), (1, 1)} := by decide
  have c2 : claimsOf [(1, 0, 0), (1, 1, 1), (2, 2, 2)] 2 = {(2, 2)} := by decide
  have t1 : sumTrust [(1, 0, 0), (1, 1, 1), (2, 2, 2)] priorFixed 1 = 1 := by
    rw [sumTrust, c1, Finset.sum_pair (by decide)]; simp [priorFixed]; norm_num
  have t2 : sumTrust [(1, 0, 0), (1, 1, 1), (2, 2, 2)] priorFixed 2 = 1 / 2 := by
    rw [sumTrust, c2, Finset.sum_singleton]; rfl
  rw [e1, e2, h]
  apply below_single
  show scaled _ _ _ < scaled _ _ _
  refine div_lt_div_of_pos_right ?_ (top_pos (a := 1) (by decide) (lt_of_lt_of_eq one_pos t1.symm))
  exact (lt_of_eq_of_lt t2 (by norm_num)).trans_eq t1.symm

end TD
