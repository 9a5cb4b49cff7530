import Verif.Lemmas.InvestPrecision
import Verif.Props.InvestDouble
import Verif.Props.Precision
/-!
# C104: How accurate Investment and PooledInvestment are in double precision
-/

namespace TD
open Spec Double
attribute [-instance] instBEqProd
variable {S V X : Type} [DecidableEq S] [DecidableEq V] [DecidableEq X] {ω : Platform}

theorem Spec.CloseTo.weaken {l : List (S × V × X)} {r : Result S V X (FP (.binary64 ω))} {x : Scores S V X} {δ ε : ℝ}
    (h : CloseTo l r x δ) (hδ : δ ≤ ε) (h1 : ∀ s ∈ allSources l, 0 ≤ x.1 s) (h2 : ∀ c ∈ allClaims l, 0 ≤ x.2 c) :
    CloseTo l r x ε := by
  constructor
  · intro s
    have := h.1 s
    split_ifs at this ⊢ with hs
    · obtain ⟨y, hy, hd⟩ := this
      exact ⟨y, hy, hd.trans (mul_le_mul_of_nonneg_left hδ (h1 s hs))⟩
    · exact this
  · intro v y
    have := h.2 v y
    split_ifs at this ⊢ with hs
    · obtain ⟨z, hz, hd⟩ := this
      exact ⟨z, hz, hd.trans (mul_le_mul_of_nonneg_left hδ (h2 _ hs))⟩
    · exact this

section
variable (l : List (S × V × X))

/-- The scores after `n` iterations, with bounds on the numbers of roundings. -/
def InvAt (ω : Platform) (τ : Nat) (h M N : ℝ) (n : Nat) (x : Scores S V X) (t b : Vec (FP (.binary64 ω))) : Prop :=
  ∃ (kT kB : Nat) (Y : ℝ), (kT : ℝ) ≤ Y ∧ (kB : ℝ) ≤ h * Y + M ∧ (1 + h) * Y + N = N * (2 + h) ^ n ∧
    (n = 0 ∧ InvIn l ω τ kT kB x t b ∨ 1 ≤ n ∧ InvOut l ω kT kB x t b)

/-- What is needed of an iteration. -/
def InvBody (ω : Platform) (τ : Nat) (h M N : ℝ) (body : Vec (FP (.binary64 ω)) → Vec (FP (.binary64 ω)) →
    Except PyErr (Option (Step (FP (.binary64 ω))))) (step : Scores S V X → Scores S V X) : Prop :=
  ∀ (kT kB : Nat) (Y : ℝ) (x : Scores S V X) t b, (kT : ℝ) ≤ Y → (kB : ℝ) ≤ h * Y + M → InvIn l ω τ kT kB x t b →
    ∃ s kT' kB', body t b = .ok (some s) ∧ InvOut l ω kT' kB' (step x) s.trust s.belief ∧
      (kT' : ℝ) ≤ (2 + h) * Y + N ∧ (kB' : ℝ) ≤ h * ((2 + h) * Y + N) + M

variable {l}

theorem InvOut.accOut (hl : l ≠ []) {kT kB k : Nat} {x : Scores S V X} {t b : Vec (FP (.binary64 ω))} (h : InvOut l ω kT kB x t b)
    (hT : kT ≤ k) (hB : kB ≤ k) : ∃ p, AccOut l ω (fun _ => True) p k x t b := by
  obtain ⟨p, T, B, h1, h2, h3, h4⟩ := h
  obtain ⟨c, hc, e⟩ := h4.2.1
  obtain ⟨s, hs⟩ := sourcesOf_nonempty l hc
  exact ⟨p, T, B, h1, h2, h3.mono le_rfl hT, h4.mono le_rfl hB, s, c, (mem_sourcesOf l).1 hs, trivial, by rw [e]; exact one_pos⟩

theorem InvOut.nonneg {kT kB : Nat} {x : Scores S V X} {t b : Vec (FP (.binary64 ω))} (h : InvOut l ω kT kB x t b) :
    (∀ s ∈ allSources l, 0 ≤ x.1 s) ∧ ∀ c ∈ allClaims l, 0 ≤ x.2 c := by
  obtain ⟨p, T, B, h1, h2, h3, h4⟩ := h
  exact ⟨fun s hs => (h3.1.1 s ((mem_allSources l).1 hs)).2.2.2, fun c hc => (h4.1.1 c ((mem_allClaims l).1 hc)).2.2.2⟩

theorem InvAt.close {τ : Nat} {h M N : ℝ} (hl : l ≠ []) (hh : 0 ≤ h) (hM : M ≤ N) {n : Nat} {x : Scores S V X}
    {t b : Vec (FP (.binary64 ω))} (hi : InvAt l ω τ h M N n x t b) (hn : 1 ≤ n) (hk : N * (2 + h) ^ n ≤ 2 ^ 51)
    (time : FP (.binary64 ω)) (it : Option Nat) :
    CloseTo l (resultOf l t b time it) x (N * (2 + h) ^ n / 2 ^ 51) := by
  obtain ⟨kT, kB, Y, h1, h2, h3, ⟨h0, -⟩ | ⟨-, ho⟩⟩ := hi
  · omega
  have hY : 0 ≤ Y := le_trans (Nat.cast_nonneg _) h1
  have hk' : ((max kT kB : Nat) : ℝ) ≤ N * (2 + h) ^ n := by
    rw [← h3]
    rcases max_choice kT kB with e | e <;> rw [e]
    · have : 0 ≤ (kB : ℝ) := Nat.cast_nonneg _
      nlinarith
    · nlinarith
  obtain ⟨p, ha⟩ := ho.accOut hl (le_max_left kT kB) (le_max_right kT kB)
  have hk51 : max kT kB ≤ 2 ^ 51 := by exact_mod_cast hk'.trans hk
  refine (ha.close hk51 time it).weaken ?_ ho.nonneg.1 ho.nonneg.2
  gcongr

theorem InvAt.next {τ : Nat} {h M N : ℝ} {body : Vec (FP (.binary64 ω)) → Vec (FP (.binary64 ω)) →
    Except PyErr (Option (Step (FP (.binary64 ω))))} {step : Scores S V X → Scores S V X} (hbody : InvBody l ω τ h M N body step)
    {n : Nat} {x : Scores S V X} {t b : Vec (FP (.binary64 ω))} (hi : InvAt l ω τ h M N n x t b)
    (hlow : n = 0 ∨ (∀ y, y ∈ t → ∃ z : ℝ, y = FP.fin z ∧ (2 : ℝ) ^ (-(τ : ℤ)) ≤ z) ∧
      ∀ y, y ∈ b → ∃ z : ℝ, y = FP.fin z ∧ (2 : ℝ) ^ (-(τ : ℤ)) ≤ z) :
    ∃ s, body t b = .ok (some s) ∧ InvAt l ω τ h M N (n + 1) (step x) s.trust s.belief := by
  obtain ⟨kT, kB, Y, h1, h2, h3, hor⟩ := hi
  have hin : ∃ kT kB : Nat, (kT : ℝ) ≤ Y ∧ (kB : ℝ) ≤ h * Y + M ∧ InvIn l ω τ kT kB x t b := by
    rcases hor with ⟨-, h4⟩ | ⟨hn, h4⟩
    · exact ⟨kT, kB, h1, h2, h4⟩
    · rcases hlow with h0 | ⟨g1, g2⟩
      · omega
      · exact ⟨kT, kB, h1, h2, h4.in l g1 g2⟩
  obtain ⟨kT, kB, h1, h2, h4⟩ := hin
  obtain ⟨s, kT', kB', g1, g2, g3, g4⟩ := hbody kT kB Y x t b h1 h2 h4
  refine ⟨s, g1, kT', kB', (2 + h) * Y + N, g3, g4, ?_, .inr ⟨by omega, g2⟩⟩
  rw [pow_succ, ← mul_assoc, ← h3]
  ring

/-- What a lower bound on the scores of a partial result says about the vectors. -/
theorem low_of_within {f : Option (V → X → X → Option (FP (.binary64 ω)))} {t b : Vec (FP (.binary64 ω))}
    (hs : Sized (matsOf l f) t b) {time it} {P : ℝ → Prop} (h : Within (resultOf l t b time it) P) :
    (∀ y, y ∈ t → ∃ z : ℝ, y = FP.fin z ∧ P z) ∧ ∀ y, y ∈ b → ∃ z : ℝ, y = FP.fin z ∧ P z := by
  obtain ⟨T, B, rfl, rfl, h1, h2⟩ := within_labels l f hs h
  constructor <;> intro y hy <;> obtain ⟨a, ha, rfl⟩ := List.mem_map.1 hy
  · exact ⟨_, rfl, h1 a ha⟩
  · exact ⟨_, rfl, h2 a ha⟩

/-- Partial results, given what an iteration does. -/
theorem invAt_iter {τ : Nat} {h M N : ℝ} (hh : 0 ≤ h) (hM : M ≤ N) (c : AlgCfg (FP (.binary64 ω)))
    (f : Option (V → X → X → Option (FP (.binary64 ω)))) (x0 : Scores S V X) {step : Scores S V X → Scores S V X}
    (hbody : l ≠ [] → InvBody l ω τ h M N (c.kind.body (matsOf l f)) step)
    (hin : l ≠ [] → ∃ t b, c.init (matsOf l f) = .ok (t, b) ∧ InvAt l ω τ h M N 0 x0 t b ∧ initLog c t b = [⟨0, t, b⟩])
    (fuel : Nat) (clock : Nat → FP (.binary64 ω)) (st : IterState (FP (.binary64 ω)))
    (rs : List (Result S V X (FP (.binary64 ω)))) (hr : c.runIter (datasetOf l f) fuel clock st = .ok rs)
    (n : Nat) (r : Result S V X (FP (.binary64 ω))) (hn : rs[n]? = some r) (hn1 : 1 ≤ n)
    (hw : ∀ j r', j < n → rs[j]? = some r' → Within r' (fun y => (2 : ℝ) ^ (-(τ : ℤ)) ≤ y)) (hk : N * (2 + h) ^ n ≤ 2 ^ 51) :
    CloseTo l r (step^[n] x0) (N * (2 + h) ^ n / 2 ^ 51) := by
  rw [runIter_eq] at hr
  cases he : c.exec (matsOf l f) fuel st with
  | error e => rw [he] at hr; cases hr
  | ok out =>
    rw [he] at hr
    cases hr
    obtain ⟨-, hz⟩ := exec_sized (matsOf_wf l f) he
    obtain ⟨h0, t0, b0, n', st1, t, b, L, hi, -, hs, hst, hfin, hit, hlog⟩ := (exec_ok_iff _ _ _ _ _).1 he
    have hl : l ≠ [] := fun e => h0 ((numClaims_zero l f).2 e)
    obtain ⟨t1, b1, hi1, hstart, hil⟩ := hin hl
    rw [hi1] at hi
    cases hi
    have hlog' : out.log = ⟨0, t0, b0⟩ :: L := by rw [hlog, hil]; rfl
    rw [hlog'] at hn hz hw
    simp only [enum, List.map_map, List.getElem?_map, List.getElem?_zipIdx, Option.map_map, Option.map_eq_some_iff] at hn hw
    obtain ⟨e, he', rfl⟩ := hn
    have key : ∀ j e, j ≤ n → (⟨0, t0, b0⟩ :: L)[j]? = some e → InvAt l ω τ h M N j (step^[j] x0) e.trust e.belief := by
      intro j
      induction j with
      | zero =>
        intro e _ he
        simp only [List.getElem?_cons_zero, Option.some.injEq] at he
        subst he
        exact hstart
      | succ j ih =>
        intro e hj he
        have hlen : j < (⟨0, t0, b0⟩ :: L : List (LogEntry (FP (.binary64 ω)))).length := by
          have := (List.getElem?_eq_some_iff.1 he).1
          omega
        have hprev := List.getElem?_eq_getElem hlen
        have hat := ih _ (by omega) hprev
        obtain ⟨s, hb, e1, e2⟩ := hs.consecutive 0 j _ _ hprev he
        obtain ⟨s', hb', hnext⟩ := hat.next (hbody hl)
          (.inr (low_of_within (hz _ (List.mem_of_getElem? hprev)) (hw j _ (by omega) ⟨_, hprev, rfl⟩)))
        rw [hb] at hb'
        simp only [Except.ok.injEq, Option.some.injEq] at hb'
        subst hb'
        rw [Function.iterate_succ_apply', e1, e2]
        exact hnext
    exact (key n e le_rfl he').close hl hh hM hn1 hk _ _

theorem Unit1.low {p k τ : Nat} {A : Type} {as : List A} {F G : A → ℝ} (h : Unit1 ω p k as F G) (hk : k ≤ 2 ^ 50)
    (hF : ∀ a ∈ as, 2 * (2 : ℝ) ^ (-(τ : ℤ)) ≤ F a) : ∀ a ∈ as, (2 : ℝ) ^ (-(τ : ℤ)) ≤ G a := by
  intro a ha
  have hF0 := (h.1.1 a ha).2.2.2
  have h1 := (h.1.near h.2.1 h.2.2.1 h.2.2.2 a ha).abs_sub_le hF0 (by omega)
  have h2 : F a * ((2 * k : Nat) : ℝ) / 2 ^ 52 ≤ F a / 2 := by
    have : (k : ℝ) ≤ 2 ^ 50 := by exact_mod_cast hk
    push_cast
    rw [div_le_div_iff₀ (by norm_num) (by norm_num)]
    nlinarith
  have h3 := (abs_le.1 (h1.trans h2)).1
  have h4 := hF a ha
  linarith

theorem InvAt.low {τ : Nat} {h M N : ℝ} (hh : 0 ≤ h) (hM : M ≤ N) {n : Nat} {x : Scores S V X}
    {t b : Vec (FP (.binary64 ω))} (hi : InvAt l ω τ h M N n x t b) (hk : N * (2 + h) ^ n ≤ 2 ^ 50)
    (hx : AtLeast l x (2 * (2 : ℝ) ^ (-(τ : ℤ)))) :
    n = 0 ∨ (∀ y, y ∈ t → ∃ z : ℝ, y = FP.fin z ∧ (2 : ℝ) ^ (-(τ : ℤ)) ≤ z) ∧
      ∀ y, y ∈ b → ∃ z : ℝ, y = FP.fin z ∧ (2 : ℝ) ^ (-(τ : ℤ)) ≤ z := by
  obtain ⟨kT, kB, Y, h1, h2, h3, ⟨h0, -⟩ | ⟨-, p, T, B, rfl, rfl, hT, hB⟩⟩ := hi
  · exact .inl h0
  have hY : 0 ≤ Y := le_trans (Nat.cast_nonneg _) h1
  have hB0 : 0 ≤ (kB : ℝ) := Nat.cast_nonneg _
  have hkT : kT ≤ 2 ^ 50 := by
    have : (kT : ℝ) ≤ N * (2 + h) ^ n := by rw [← h3]; nlinarith
    exact_mod_cast this.trans hk
  have hkB : kB ≤ 2 ^ 50 := by
    have : (kB : ℝ) ≤ N * (2 + h) ^ n := by rw [← h3]; nlinarith
    exact_mod_cast this.trans hk
  have hT' := hT.low (τ := τ) hkT fun s hs => hx.1 s ((mem_allSources l).2 hs)
  have hB' := hB.low (τ := τ) hkB fun c hc => hx.2 c ((mem_allClaims l).2 hc)
  refine .inr ⟨?_, ?_⟩ <;> intro y hy <;> obtain ⟨a, ha, rfl⟩ := List.mem_map.1 hy
  · exact ⟨_, rfl, hT' a ha⟩
  · exact ⟨_, rfl, hB' a ha⟩

/-- Whole runs with a fixed number of iterations. -/
theorem invAt_fixed {τ : Nat} {h M N : ℝ} (hh : 0 ≤ h) (hN0 : 0 ≤ N) (hM : M ≤ N) (k : Kind (FP (.binary64 ω))) (hk : k ≠ .unboundedSums)
    (p : Option Prior) (K : Nat) (hK : 1 ≤ K) (hl : l ≠ [])
    (f : Option (V → X → X → Option (FP (.binary64 ω)))) (x0 : Scores S V X) {step : Scores S V X → Scores S V X}
    (hbody : InvBody l ω τ h M N (k.body (matsOf l f)) step)
    (hin : ∃ t b, (⟨k, .fixed K, p⟩ : AlgCfg (FP (.binary64 ω))).init (matsOf l f) = .ok (t, b) ∧ InvAt l ω τ h M N 0 x0 t b)
    (hx : ∀ j, 1 ≤ j → j < K → AtLeast l (step^[j] x0) (2 * (2 : ℝ) ^ (-(τ : ℤ)))) (hb : N * (2 + h) ^ K ≤ 2 ^ 50)
    (fuel : Nat) (hf : K < fuel) (clock : Nat → FP (.binary64 ω)) (st : IterState (FP (.binary64 ω))) :
    ∃ r, (⟨k, .fixed K, p⟩ : AlgCfg (FP (.binary64 ω))).run (datasetOf l f) fuel clock st = .ok r ∧ r.iterations = some K ∧
      CloseTo l r (step^[K] x0) (N * (2 + h) ^ K / 2 ^ 51) := by
  obtain ⟨t0, b0, hi, hstart⟩ := hin
  have hpow : ∀ j, j ≤ K → N * (2 + h) ^ j ≤ 2 ^ 50 := fun j hj =>
    (mul_le_mul_of_nonneg_left (pow_le_pow_right₀ (by linarith) hj) hN0).trans hb
  have key : ∀ j, j ≤ K → ∃ st1 t b L, Steps (.fixed K) (k.body (matsOf l f)) {} t0 b0 j st1 t b L ∧
      InvAt l ω τ h M N j (step^[j] x0) t b := by
    intro j
    induction j with
    | zero => exact fun _ => ⟨_, _, _, _, .refl _ _ _, hstart⟩
    | succ j ih =>
      intro hj
      obtain ⟨st1, t, b, L, hs, hat⟩ := ih (by omega)
      have hlow : j = 0 ∨ (∀ y, y ∈ t → ∃ z : ℝ, y = FP.fin z ∧ (2 : ℝ) ^ (-(τ : ℤ)) ≤ z) ∧
          ∀ y, y ∈ b → ∃ z : ℝ, y = FP.fin z ∧ (2 : ℝ) ^ (-(τ : ℤ)) ≤ z := by
        rcases Nat.eq_zero_or_pos j with h0 | h0
        · exact .inl h0
        · exact hat.low hh hM (hpow j (by omega)) (hx j h0 (by omega))
      obtain ⟨s, hb, hnext⟩ := hat.next hbody hlow
      have hcount := hs.itCount
      have hone : Steps (.fixed K) (k.body (matsOf l f)) st1 t b 1 { st1 with itCount := st1.itCount + 1 }
          s.trust s.belief [⟨st1.itCount + 1, s.trust, s.belief⟩] := by
        refine .cons ?_ hb rfl (.refl _ _ _)
        simp only [IterCfg.finished, Except.ok.injEq, decide_eq_false_iff_not]
        simp only [zero_add] at hcount
        omega
      refine ⟨_, _, _, _, hs.append hone, ?_⟩
      rw [Function.iterate_succ_apply']
      exact hnext
  obtain ⟨st1, t, b, L, hs, hat⟩ := key K le_rfl
  have hcount := hs.itCount
  have hex : (⟨k, .fixed K, p⟩ : AlgCfg (FP (.binary64 ω))).exec (matsOf l f) fuel st =
      .ok ⟨t, b, K, initLog ⟨k, .fixed K, p⟩ t0 b0 ++ L⟩ := by
    rw [exec_ok_iff]
    refine ⟨fun e => hl ((numClaims_zero l f).1 e), t0, b0, K, _, t, b, _, hi, hf, hs, .inl ?_, finish_other hk _ _, rfl, rfl⟩
    simp only [IterCfg.finished, Except.ok.injEq, decide_eq_true_eq]
    simp only [zero_add] at hcount
    omega
  exact ⟨_, by rw [run_eq, hex], rfl, hat.close hl hh hM hK (hb.trans (by norm_num)) _ _⟩

/-- The scores before the first iteration. -/
theorem invAt_start {τ : Nat} (hτ : 53 ≤ τ) {h M N : ℝ} (hM : 1 ≤ M) (f : Option (V → X → X → Option (FP (.binary64 ω)))) (hl : l ≠ [])
    (hS : (sources l).length ≤ 2 ^ 20) (hC : (claims l).length ≤ 2 ^ 20) (k : Kind (FP (.binary64 ω))) (hk : Invests k)
    (it : IterCfg (FP (.binary64 ω))) (p : Prior) :
    ∃ t b, (⟨k, it, some p⟩ : AlgCfg (FP (.binary64 ω))).init (matsOf l f) = .ok (t, b) ∧
      InvAt l ω τ h M N 0 ((fun _ => 1), priorOf l p) t b ∧ initLog ⟨k, it, some p⟩ t b = [⟨0, t, b⟩] := by
  obtain ⟨e, h⟩ := prior_rnd (ω := ω) l f hl ((Nat.mul_le_mul hS hC).trans (by norm_num)) p
  have hS' : ((sources l).length : ℝ) ≤ 2 ^ ((20 : Nat) : ℤ) := by exact_mod_cast hS
  obtain ⟨B, hB⟩ := choose_on (as := claims l) (P := fun c y => (Rounding.binary64 ω).rnd (priorOf l p c) = .fin y ∧
      Ok ω 53 20 1 (1 * priorOf l p c) y) (fun c hc => by
    obtain ⟨h1, h2, h3⟩ := h c hc
    rcases h1 with h1 | h1
    · exact absurd h1 h2.ne'
    · have := Ok.rnd (ω := ω) (p := 53) (q := 20) (k := 0) (x := priorOf l p c) h1 (h3.trans hS') (Near.refl _) h2 (by norm_num) (by norm_num)
      rw [one_mul]
      simpa using this)
  have hones : (ones (matsOf l f).numSources : Vec (FP (.binary64 ω))) = (sources l).map fun _ => FP.fin 1 := by
    have : (matsOf l f).numSources = (sources l).length := rfl
    rw [this, ones_eq]
    simp [FP.one_eq]
  have eb : (claims l).map (fun c => ((Rounding.binary64 ω).rnd (priorOf l p c) : FP (.binary64 ω))) = (claims l).map fun c => (FP.fin (B c) : FP (.binary64 ω)) :=
    List.map_congr_left fun c hc => (hB c hc).1
  have e' : priorBeliefs (some p) (matsOf l f) = .ok ((claims l).map fun c => (FP.fin (B c) : FP (.binary64 ω))) :=
    e.trans (congrArg Except.ok eb)
  refine ⟨(sources l).map fun _ => FP.fin 1, (claims l).map fun c => FP.fin (B c), ?_, ⟨0, 1, 0, by simp, by simpa using hM, by simp,
    .inl ⟨rfl, fun _ => 1, B, 1, 1, rfl, rfl, one_pos, one_pos, fun s _ => ?_, fun c hc => (hB c hc).2.mono hτ le_rfl le_rfl⟩⟩, ?_⟩
  · obtain ⟨g, -, -, rfl | rfl⟩ := hk <;>
      simp only [AlgCfg.init, e', hones, bind, Except.bind, pure, Except.pure]
  · rw [one_mul]
    exact (show Ok ω 0 0 0 (1 : ℝ) 1 from ⟨rep_one, by simp, by simp, Near.refl _, one_pos⟩).mono (by omega) (by omega) le_rfl
  · obtain ⟨g, -, -, rfl | rfl⟩ := hk <;> rfl

theorem invest_body_ok (f : Option (V → X → X → Option (FP (.binary64 ω)))) (hS : (sources l).length ≤ 2 ^ 20)
    (hC : (claims l).length ≤ 2 ^ 20) {a b : Nat} (ha : ∀ s, (claimsOf l s).card ≤ a) (hb : ∀ c, (sourcesOf l c).card ≤ b)
    {g : ℝ} (h0 : 0 < g) (h1 : g ≤ 3 / 2) (hl : l ≠ []) :
    InvBody l ω 160 g 4 (a + 2 * b + 10) ((Kind.investment (FP.fin g)).body (matsOf l f)) (investStep l g) := by
  intro kT kB Y x t bl hT hB hin
  have hb' : (0 : ℝ) ≤ b := Nat.cast_nonneg b
  have hR : ((2 * kT + kB + 6 + a + 2 * b : Nat) : ℝ) ≤ (2 + g) * Y + (a + 2 * b + 10) := by push_cast; nlinarith
  have hm := Nat.le_ceil (g * ((2 * kT + kB + 6 + a + 2 * b : Nat) : ℝ))
  have hm' := Nat.ceil_lt_add_one (a := g * ((2 * kT + kB + 6 + a + 2 * b : Nat) : ℝ)) (by positivity)
  obtain ⟨s, e, ho⟩ := invest_out l f hl hS hC ha hb h0 h1 hm hin
  have hgR := mul_le_mul_of_nonneg_left hR h0.le
  refine ⟨s, _, _, e, ho, ?_, ?_⟩
  · push_cast at hR ⊢
    linarith
  · push_cast at hgR hm' ⊢
    linarith

theorem pooled_body_ok (f : Option (V → X → X → Option (FP (.binary64 ω)))) (hS : (sources l).length ≤ 2 ^ 20)
    (hC : (claims l).length ≤ 2 ^ 20) {a b v : Nat} (ha : ∀ s, (claimsOf l s).card ≤ a) (hb : ∀ c, (sourcesOf l c).card ≤ b)
    (hv : ∀ c, (rivals l c).card ≤ v) {g : ℝ} (h0 : 0 < g) (h1 : g ≤ 3 / 2) (hl : l ≠ []) :
    InvBody l ω 64 (1 + 2 * g) (9 + v) (a + 2 * b + v + 15) ((Kind.pooledInvestment (FP.fin g)).body (matsOf l f)) (pooledStep l g) := by
  intro kT kB Y x t bl hT hB hin
  have hb' : (0 : ℝ) ≤ b := Nat.cast_nonneg b
  have hR : ((2 * kT + kB + 6 + a + 2 * b : Nat) : ℝ) ≤ (2 + (1 + 2 * g)) * Y + (a + 2 * b + v + 15) := by push_cast; nlinarith
  have hm := Nat.le_ceil (g * ((2 * kT + kB + 6 + a + 2 * b : Nat) : ℝ))
  have hm' := Nat.ceil_lt_add_one (a := g * ((2 * kT + kB + 6 + a + 2 * b : Nat) : ℝ)) (by positivity)
  obtain ⟨s, e, ho⟩ := pooled_out l f hl hS hC ha hb hv h0 h1 hm hin
  have hgR := mul_le_mul_of_nonneg_left hR h0.le
  refine ⟨s, _, _, e, ho, ?_, ?_⟩
  · push_cast at hR ⊢
    linarith
  · push_cast at hR hgR hm' ⊢
    linarith

end

/-- **C104.** Investment in double precision, with an exponent of at most 3/2, any prior and any iterator, on at most `2 ^ 20`
sources and claims: as long as all scores of the earlier partial results are at least `2 ^ -160`, every score of the
`n`-th partial result is a finite number that differs from the score that `n` exact iterations give by at most the fraction
`(a + 2 * b + 10) * (2 + g) ^ n / 2 ^ 51` of it, where no source has more than `a` claims and no claim more than `b` sources. -/
theorem C104_investment (l : List (S × V × X)) (am : Bool) (f : Option (V → X → X → Option (FP (.binary64 ω))))
    (d : Dataset S V X (FP (.binary64 ω))) (h : Dataset.mk' l am f = .ok d)
    (hS : (allSources l).card ≤ 2 ^ 20) (hC : (allClaims l).card ≤ 2 ^ 20)
    {a b : Nat} (ha : ∀ s, (claimsOf l s).card ≤ a) (hb : ∀ c, (sourcesOf l c).card ≤ b)
    (g : ℝ) (h0 : 0 < g) (h1 : g ≤ 3 / 2) (it : IterCfg (FP (.binary64 ω))) (p : Prior)
    (fuel : Nat) (clock : Nat → FP (.binary64 ω)) (st : IterState (FP (.binary64 ω)))
    (rs : List (Result S V X (FP (.binary64 ω))))
    (hr : (⟨.investment (FP.fin g), it, some p⟩ : AlgCfg (FP (.binary64 ω))).runIter d fuel clock st = .ok rs)
    (n : Nat) (r : Result S V X (FP (.binary64 ω))) (hn : rs[n]? = some r) (hn1 : 1 ≤ n)
    (hw : ∀ j r', j < n → rs[j]? = some r' → Within r' (fun y => (2 : ℝ) ^ (-160 : ℤ) ≤ y))
    (hk : (a + 2 * b + 10) * (2 + g) ^ n ≤ 2 ^ 51) :
    CloseTo l r ((investStep l g)^[n] ((fun _ => 1), priorOf l p)) ((a + 2 * b + 10) * (2 + g) ^ n / 2 ^ 51) := by
  obtain rfl := ((mk'_ok_iff l one_ne_zero_fp am f d).1 h).1
  rw [← length_sources] at hS
  rw [← length_claims] at hC
  have hab : (4 : ℝ) ≤ a + 2 * b + 10 := by
    have : (0 : ℝ) ≤ a := Nat.cast_nonneg a
    have : (0 : ℝ) ≤ b := Nat.cast_nonneg b
    linarith
  exact invAt_iter h0.le hab _ f _ (invest_body_ok f hS hC ha hb h0 h1)
    (fun hl => invAt_start (by norm_num) (by norm_num) f hl hS hC _ ⟨g, h0, h1, .inl rfl⟩ it p) fuel clock st rs hr n r hn hn1 hw hk

/-- **C104.** The same for PooledInvestment, with `2 ^ -64` instead of `2 ^ -160` and the fraction
`(a + 2 * b + v + 15) * (3 + 2 * g) ^ n / 2 ^ 51`, where no variable has more than `v` values. -/
theorem C104_pooled_investment (l : List (S × V × X)) (am : Bool) (f : Option (V → X → X → Option (FP (.binary64 ω))))
    (d : Dataset S V X (FP (.binary64 ω))) (h : Dataset.mk' l am f = .ok d)
    (hS : (allSources l).card ≤ 2 ^ 20) (hC : (allClaims l).card ≤ 2 ^ 20)
    {a b v : Nat} (ha : ∀ s, (claimsOf l s).card ≤ a) (hb : ∀ c, (sourcesOf l c).card ≤ b) (hv : ∀ c, (rivals l c).card ≤ v)
    (g : ℝ) (h0 : 0 < g) (h1 : g ≤ 3 / 2) (it : IterCfg (FP (.binary64 ω))) (p : Prior)
    (fuel : Nat) (clock : Nat → FP (.binary64 ω)) (st : IterState (FP (.binary64 ω)))
    (rs : List (Result S V X (FP (.binary64 ω))))
    (hr : (⟨.pooledInvestment (FP.fin g), it, some p⟩ : AlgCfg (FP (.binary64 ω))).runIter d fuel clock st = .ok rs)
    (n : Nat) (r : Result S V X (FP (.binary64 ω))) (hn : rs[n]? = some r) (hn1 : 1 ≤ n)
    (hw : ∀ j r', j < n → rs[j]? = some r' → Within r' (fun y => (2 : ℝ) ^ (-64 : ℤ) ≤ y))
    (hk : (a + 2 * b + v + 15) * (3 + 2 * g) ^ n ≤ 2 ^ 51) :
    CloseTo l r ((pooledStep l g)^[n] ((fun _ => 1), priorOf l p)) ((a + 2 * b + v + 15) * (3 + 2 * g) ^ n / 2 ^ 51) := by
  obtain rfl := ((mk'_ok_iff l one_ne_zero_fp am f d).1 h).1
  rw [← length_sources] at hS
  rw [← length_claims] at hC
  have hab : (9 + v : ℝ) ≤ a + 2 * b + v + 15 := by
    have : (0 : ℝ) ≤ a := Nat.cast_nonneg a
    have : (0 : ℝ) ≤ b := Nat.cast_nonneg b
    linarith
  rw [show (3 + 2 * g) = 2 + (1 + 2 * g) by ring] at hk ⊢
  exact invAt_iter (by linarith) hab _ f _ (pooled_body_ok f hS hC ha hb hv h0 h1)
    (fun hl => invAt_start (by norm_num) (by linarith [(Nat.cast_nonneg v : (0 : ℝ) ≤ v)]) f hl hS hC _ ⟨g, h0, h1, .inr rfl⟩ it p)
    fuel clock st rs hr n r hn hn1 hw hk

/-- **C104.** With a bound on the exact scores instead: if these are at least `2 ^ -159` after each of the first `K - 1` iterations, the
run in double precision with `K` iterations succeeds and is that accurate. -/
theorem C104_investment_fixed (l : List (S × V × X)) (hl : l ≠ []) (am : Bool) (f : Option (V → X → X → Option (FP (.binary64 ω))))
    (d : Dataset S V X (FP (.binary64 ω))) (h : Dataset.mk' l am f = .ok d)
    (hS : (allSources l).card ≤ 2 ^ 20) (hC : (allClaims l).card ≤ 2 ^ 20)
    {a b : Nat} (ha : ∀ s, (claimsOf l s).card ≤ a) (hb : ∀ c, (sourcesOf l c).card ≤ b)
    (g : ℝ) (h0 : 0 < g) (h1 : g ≤ 3 / 2) (p : Prior) (K : Nat) (hK : 1 ≤ K)
    (hx : ∀ j, 1 ≤ j → j < K → AtLeast l ((investStep l g)^[j] ((fun _ => 1), priorOf l p)) (2 ^ (-159 : ℤ)))
    (hk : (a + 2 * b + 10) * (2 + g) ^ K ≤ 2 ^ 50)
    (fuel : Nat) (hf : K < fuel) (clock : Nat → FP (.binary64 ω)) (st : IterState (FP (.binary64 ω))) :
    ∃ r, (⟨.investment (FP.fin g), .fixed K, some p⟩ : AlgCfg (FP (.binary64 ω))).run d fuel clock st = .ok r ∧
      r.iterations = some K ∧
      CloseTo l r ((investStep l g)^[K] ((fun _ => 1), priorOf l p)) ((a + 2 * b + 10) * (2 + g) ^ K / 2 ^ 51) := by
  obtain rfl := ((mk'_ok_iff l one_ne_zero_fp am f d).1 h).1
  rw [← length_sources] at hS
  rw [← length_claims] at hC
  have hab : (4 : ℝ) ≤ a + 2 * b + 10 := by
    have : (0 : ℝ) ≤ a := Nat.cast_nonneg a
    have : (0 : ℝ) ≤ b := Nat.cast_nonneg b
    linarith
  obtain ⟨t, b', hi, hat, -⟩ := invAt_start (τ := 160) (h := g) (M := 4) (N := a + 2 * b + 10) (by norm_num) (by norm_num) f hl hS hC
    (.investment (FP.fin g)) ⟨g, h0, h1, .inl rfl⟩ (.fixed K) p
  refine invAt_fixed h0.le (by linarith) hab _ (by simp) (some p) K hK hl f _ (invest_body_ok f hS hC ha hb h0 h1 hl) ⟨t, b', hi, hat⟩
    (fun j h1 h2 => ?_) hk fuel hf clock st
  have e : 2 * (2 : ℝ) ^ (-((160 : Nat) : ℤ)) = 2 ^ (-159 : ℤ) := by
    have := p2_add 1 (-160)
    rw [zpow_one] at this
    exact this
  rw [e]
  exact hx j h1 h2

/-- **C104.** The same for PooledInvestment. -/
theorem C104_pooled_investment_fixed (l : List (S × V × X)) (hl : l ≠ []) (am : Bool)
    (f : Option (V → X → X → Option (FP (.binary64 ω))))
    (d : Dataset S V X (FP (.binary64 ω))) (h : Dataset.mk' l am f = .ok d)
    (hS : (allSources l).card ≤ 2 ^ 20) (hC : (allClaims l).card ≤ 2 ^ 20)
    {a b v : Nat} (ha : ∀ s, (claimsOf l s).card ≤ a) (hb : ∀ c, (sourcesOf l c).card ≤ b) (hv : ∀ c, (rivals l c).card ≤ v)
    (g : ℝ) (h0 : 0 < g) (h1 : g ≤ 3 / 2) (p : Prior) (K : Nat) (hK : 1 ≤ K)
    (hx : ∀ j, 1 ≤ j → j < K → AtLeast l ((pooledStep l g)^[j] ((fun _ => 1), priorOf l p)) (2 ^ (-63 : ℤ)))
    (hk : (a + 2 * b + v + 15) * (3 + 2 * g) ^ K ≤ 2 ^ 50)
    (fuel : Nat) (hf : K < fuel) (clock : Nat → FP (.binary64 ω)) (st : IterState (FP (.binary64 ω))) :
    ∃ r, (⟨.pooledInvestment (FP.fin g), .fixed K, some p⟩ : AlgCfg (FP (.binary64 ω))).run d fuel clock st = .ok r ∧
      r.iterations = some K ∧
      CloseTo l r ((pooledStep l g)^[K] ((fun _ => 1), priorOf l p)) ((a + 2 * b + v + 15) * (3 + 2 * g) ^ K / 2 ^ 51) := by
  obtain rfl := ((mk'_ok_iff l one_ne_zero_fp am f d).1 h).1
  rw [← length_sources] at hS
  rw [← length_claims] at hC
  have hv0 : (0 : ℝ) ≤ v := Nat.cast_nonneg v
  have hab : (9 + v : ℝ) ≤ a + 2 * b + v + 15 := by
    have : (0 : ℝ) ≤ a := Nat.cast_nonneg a
    have : (0 : ℝ) ≤ b := Nat.cast_nonneg b
    linarith
  rw [show (3 + 2 * g) = 2 + (1 + 2 * g) by ring] at hk ⊢
  obtain ⟨t, b', hi, hat, -⟩ := invAt_start (τ := 64) (h := 1 + 2 * g) (M := 9 + v) (N := a + 2 * b + v + 15) (by norm_num)
    (by linarith) f hl hS hC (.pooledInvestment (FP.fin g)) ⟨g, h0, h1, .inr rfl⟩ (.fixed K) p
  refine invAt_fixed (by linarith) (by linarith) hab _ (by simp) (some p) K hK hl f _ (pooled_body_ok f hS hC ha hb hv h0 h1 hl)
    ⟨t, b', hi, hat⟩ (fun j h1 h2 => ?_) hk fuel hf clock st
  have e : 2 * (2 : ℝ) ^ (-((64 : Nat) : ℤ)) = 2 ^ (-63 : ℤ) := by
    have := p2_add 1 (-64)
    rw [zpow_one] at this
    exact this
  rw [e]
  exact hx j h1 h2

/-- **C104.** The same, as a comparison of two runs: the `n`-th partial results in double precision and computed exactly, whatever
the iterators. -/
theorem C104_investment_exact (l : List (S × V × X)) (hl : l ≠ []) (am : Bool) (f : Option (V → X → X → Option (FP (.binary64 ω))))
    (d : Dataset S V X (FP (.binary64 ω))) (h : Dataset.mk' l am f = .ok d)
    (f' : Option (V → X → X → Option Ex)) (d' : Dataset S V X Ex) (h' : Dataset.mk' l am f' = .ok d')
    (hS : (allSources l).card ≤ 2 ^ 20) (hC : (allClaims l).card ≤ 2 ^ 20)
    {a b : Nat} (ha : ∀ s, (claimsOf l s).card ≤ a) (hb : ∀ c, (sourcesOf l c).card ≤ b)
    (g : ℝ) (h0 : 0 < g) (h1 : g ≤ 3 / 2) (it : IterCfg (FP (.binary64 ω))) (it' : IterCfg Ex) (p : Prior)
    (fuel fuel' : Nat) (clock : Nat → FP (.binary64 ω)) (clock' : Nat → Ex) (st : IterState (FP (.binary64 ω))) (st' : IterState Ex)
    (rs : List (Result S V X (FP (.binary64 ω)))) (rs' : List (Result S V X Ex))
    (hr : (⟨.investment (FP.fin g), it, some p⟩ : AlgCfg (FP (.binary64 ω))).runIter d fuel clock st = .ok rs)
    (hr' : (⟨.investment (Ex.fin g), it', some p⟩ : AlgCfg Ex).runIter d' fuel' clock' st' = .ok rs')
    (n : Nat) (r : Result S V X (FP (.binary64 ω))) (r' : Result S V X Ex) (hn : rs[n]? = some r) (hn' : rs'[n]? = some r') (hn1 : 1 ≤ n)
    (hw : ∀ j r', j < n → rs[j]? = some r' → Within r' (fun y => (2 : ℝ) ^ (-160 : ℤ) ≤ y))
    (hk : (a + 2 * b + 10) * (2 + g) ^ n ≤ 2 ^ 51) :
    CloseRuns r r' ((a + 2 * b + 10) * (2 + g) ^ n / 2 ^ 51) :=
  (C104_investment l am f d h hS hC ha hb g h0 h1 it p fuel clock st rs hr n r hn hn1 hw hk).runs
    ((C33_investment l am f' d' h' hl it' p g).2.1 fuel' clock' st' rs' hr' n r' hn')

/-- **C104.** The same for PooledInvestment. -/
theorem C104_pooled_investment_exact (l : List (S × V × X)) (hl : l ≠ []) (am : Bool)
    (f : Option (V → X → X → Option (FP (.binary64 ω))))
    (d : Dataset S V X (FP (.binary64 ω))) (h : Dataset.mk' l am f = .ok d)
    (f' : Option (V → X → X → Option Ex)) (d' : Dataset S V X Ex) (h' : Dataset.mk' l am f' = .ok d')
    (hS : (allSources l).card ≤ 2 ^ 20) (hC : (allClaims l).card ≤ 2 ^ 20)
    {a b v : Nat} (ha : ∀ s, (claimsOf l s).card ≤ a) (hb : ∀ c, (sourcesOf l c).card ≤ b) (hv : ∀ c, (rivals l c).card ≤ v)
    (g : ℝ) (h0 : 0 < g) (h1 : g ≤ 3 / 2) (it : IterCfg (FP (.binary64 ω))) (it' : IterCfg Ex) (p : Prior)
    (fuel fuel' : Nat) (clock : Nat → FP (.binary64 ω)) (clock' : Nat → Ex) (st : IterState (FP (.binary64 ω))) (st' : IterState Ex)
    (rs : List (Result S V X (FP (.binary64 ω)))) (rs' : List (Result S V X Ex))
    (hr : (⟨.pooledInvestment (FP.fin g), it, some p⟩ : AlgCfg (FP (.binary64 ω))).runIter d fuel clock st = .ok rs)
    (hr' : (⟨.pooledInvestment (Ex.fin g), it', some p⟩ : AlgCfg Ex).runIter d' fuel' clock' st' = .ok rs')
    (n : Nat) (r : Result S V X (FP (.binary64 ω))) (r' : Result S V X Ex) (hn : rs[n]? = some r) (hn' : rs'[n]? = some r') (hn1 : 1 ≤ n)
    (hw : ∀ j r', j < n → rs[j]? = some r' → Within r' (fun y => (2 : ℝ) ^ (-64 : ℤ) ≤ y))
    (hk : (a + 2 * b + v + 15) * (3 + 2 * g) ^ n ≤ 2 ^ 51) :
    CloseRuns r r' ((a + 2 * b + v + 15) * (3 + 2 * g) ^ n / 2 ^ 51) :=
  (C104_pooled_investment l am f d h hS hC ha hb hv g h0 h1 it p fuel clock st rs hr n r hn hn1 hw hk).runs
    ((C34_pooled_investment l am f' d' h' hl it' p g).2.1 fuel' clock' st' rs' hr' n r' hn')

/-- Three sources with one claim each. -/
theorem three_step (x : Scores Nat Nat Nat) (h1 : 0 < x.1 0 ∧ 0 < x.1 1 ∧ 0 < x.1 2)
    (h2 : x.2 (0, 1) = 1 / 2 ∧ x.2 (0, 2) = 1 / 2 ∧ x.2 (1, 5) = 1) :
    let y := investStep [(0, 0, 1), (1, 0, 2), (2, 1, 5)] 1 x
    (y.1 0 = 1 / 2 ∧ y.1 1 = 1 / 2 ∧ y.1 2 = 1) ∧ y.2 (0, 1) = 1 / 2 ∧ y.2 (0, 2) = 1 / 2 ∧ y.2 (1, 5) = 1 := by
  obtain ⟨a1, a2, a3⟩ := h1
  obtain ⟨b1, b2, b3⟩ := h2
  have c1 : claimsOf [(0, 0, 1), (1, 0, 2), (2, 1, 5)] 0 = {(0, 1)} := by decide
  have c2 : claimsOf [(0, 0, 1), (1, 0, 2), (2, 1, 5)] 1 = {(0, 2)} := by decide
  have c3 : claimsOf [(0, 0, 1), (1, 0, 2), (2, 1, 5)] 2 = {(1, 5)} := by decide
  have d1 : sourcesOf [(0, 0, 1), (1, 0, 2), (2, 1, 5)] (0, 1) = {0} := by decide
  have d2 : sourcesOf [(0, 0, 1), (1, 0, 2), (2, 1, 5)] (0, 2) = {1} := by decide
  have d3 : sourcesOf [(0, 0, 1), (1, 0, 2), (2, 1, 5)] (1, 5) = {2} := by decide
  have eS : allSources [(0, 0, 1), (1, 0, 2), (2, 1, 5)] = {0, 1, 2} := by decide
  have eC : allClaims [(0, 0, 1), (1, 0, 2), (2, 1, 5)] = {(0, 1), (0, 2), (1, 5)} := by decide
  have r1 : regained [(0, 0, 1), (1, 0, 2), (2, 1, 5)] x 0 = 1 / 2 := by
    simp only [regained, invested, nClaims, c1, d1, Finset.sum_singleton, Finset.card_singleton, b1, Nat.cast_one, div_one]
    rw [div_self a1.ne']; norm_num
  have r2 : regained [(0, 0, 1), (1, 0, 2), (2, 1, 5)] x 1 = 1 / 2 := by
    simp only [regained, invested, nClaims, c2, d2, Finset.sum_singleton, Finset.card_singleton, b2, Nat.cast_one, div_one]
    rw [div_self a2.ne']; norm_num
  have r3 : regained [(0, 0, 1), (1, 0, 2), (2, 1, 5)] x 2 = 1 := by
    simp only [regained, invested, nClaims, c3, d3, Finset.sum_singleton, Finset.card_singleton, b3, Nat.cast_one, div_one]
    rw [div_self a3.ne']; norm_num
  have i1 : invested [(0, 0, 1), (1, 0, 2), (2, 1, 5)] (regained [(0, 0, 1), (1, 0, 2), (2, 1, 5)] x) (0, 1) = 1 / 2 := by
    rw [invested, d1, Finset.sum_singleton, r1, nClaims, c1]; simp
  have i2 : invested [(0, 0, 1), (1, 0, 2), (2, 1, 5)] (regained [(0, 0, 1), (1, 0, 2), (2, 1, 5)] x) (0, 2) = 1 / 2 := by
    rw [invested, d2, Finset.sum_singleton, r2, nClaims, c2]; simp
  have i3 : invested [(0, 0, 1), (1, 0, 2), (2, 1, 5)] (regained [(0, 0, 1), (1, 0, 2), (2, 1, 5)] x) (1, 5) = 1 := by
    rw [invested, d3, Finset.sum_singleton, r3, nClaims, c3]; simp
  have t1 : top (allSources [(0, 0, 1), (1, 0, 2), (2, 1, 5)]) (regained [(0, 0, 1), (1, 0, 2), (2, 1, 5)] x) = 1 :=
    Ex.top_eq_of (by
      intro s hs
      rw [eS] at hs
      simp only [Finset.mem_insert, Finset.mem_singleton] at hs
      rcases hs with rfl | rfl | rfl
      · rw [r1]; norm_num
      · rw [r2]; norm_num
      · rw [r3]) ⟨2, by decide, r3⟩
  have t2 : top (allClaims [(0, 0, 1), (1, 0, 2), (2, 1, 5)])
      (fun c => invested [(0, 0, 1), (1, 0, 2), (2, 1, 5)] (regained [(0, 0, 1), (1, 0, 2), (2, 1, 5)] x) c ^ (1 : ℝ)) = 1 :=
    Ex.top_eq_of (by
      intro c hc
      rw [eC] at hc
      simp only [Finset.mem_insert, Finset.mem_singleton] at hc
      rcases hc with rfl | rfl | rfl
      · rw [i1, Real.rpow_one]; norm_num
      · rw [i2, Real.rpow_one]; norm_num
      · rw [i3, Real.rpow_one]) ⟨(1, 5), by decide, by rw [i3, Real.rpow_one]⟩
  refine ⟨⟨?_, ?_, ?_⟩, ?_, ?_, ?_⟩
  · show regained _ x 0 / top _ _ = _
    rw [r1, t1, div_one]
  · show regained _ x 1 / top _ _ = _
    rw [r2, t1, div_one]
  · show regained _ x 2 / top _ _ = _
    rw [r3, t1, div_one]
  · show invested _ _ (0, 1) ^ (1 : ℝ) / top _ _ = _
    rw [i1, t2, div_one, Real.rpow_one]
  · show invested _ _ (0, 2) ^ (1 : ℝ) / top _ _ = _
    rw [i2, t2, div_one, Real.rpow_one]
  · show invested _ _ (1, 5) ^ (1 : ℝ) / top _ _ = _
    rw [i3, t2, div_one, Real.rpow_one]

/-- The hypotheses hold for a concrete dataset and configuration; the relative error is less than `10 ^ -9`. -/
example (clock : Nat → FP (.binary64 ω)) : ∃ (d : Dataset Nat Nat Nat (FP (.binary64 ω))) (r : Result Nat Nat Nat (FP (.binary64 ω))),
    Dataset.mk' [(0, 0, 1), (1, 0, 2), (2, 1, 5)] false none = .ok d ∧
    (⟨.investment (FP.fin 1), .fixed 10, some .uniform⟩ : AlgCfg (FP (.binary64 ω))).run d 100 clock = .ok r ∧
    CloseTo [(0, 0, 1), (1, 0, 2), (2, 1, 5)] r
      ((investStep [(0, 0, 1), (1, 0, 2), (2, 1, 5)] 1)^[10] ((fun _ => 1), priorOf [(0, 0, 1), (1, 0, 2), (2, 1, 5)] .uniform))
      (((1 : Nat) + 2 * (1 : Nat) + 10) * (2 + 1) ^ 10 / 2 ^ 51) ∧
    (((1 : Nat) + 2 * (1 : Nat) + 10) * (2 + 1) ^ 10 / 2 ^ 51 : ℝ) < 1 / 10 ^ 9 := by
  have hd := (mk'_ok_iff [(0, 0, 1), (1, 0, 2), (2, 1, 5)] (one_ne_zero_fp (R := .binary64 ω)) false none _).2
    ⟨rfl, .inr (by simp [NoRepeats]), by simp [optImpBad]⟩
  have ha : ∀ s, (claimsOf [(0, 0, 1), (1, 0, 2), (2, 1, 5)] s).card ≤ 1 := by
    intro s
    by_cases hs : s ∈ sources [(0, 0, 1), (1, 0, 2), (2, 1, 5)]
    · have : ∀ s ∈ sources [(0, 0, 1), (1, 0, 2), (2, 1, 5)], (claimsOf [(0, 0, 1), (1, 0, 2), (2, 1, 5)] s).card ≤ 1 := by decide
      exact this s hs
    · have : claimsOf [(0, 0, 1), (1, 0, 2), (2, 1, 5)] s = ∅ := by
        rw [Finset.eq_empty_iff_forall_notMem]
        intro c hc
        exact hs (mem_sources_of_sourcesOf _ ((mem_sourcesOf _).2 ((mem_claimsOf _).1 hc)))
      rw [this]; simp
  have hb : ∀ c, (sourcesOf [(0, 0, 1), (1, 0, 2), (2, 1, 5)] c).card ≤ 1 := by
    intro c
    by_cases hs : c ∈ claims [(0, 0, 1), (1, 0, 2), (2, 1, 5)]
    · have : ∀ c ∈ claims [(0, 0, 1), (1, 0, 2), (2, 1, 5)], (sourcesOf [(0, 0, 1), (1, 0, 2), (2, 1, 5)] c).card ≤ 1 := by decide
      exact this c hs
    · have : sourcesOf [(0, 0, 1), (1, 0, 2), (2, 1, 5)] c = ∅ := by
        rw [Finset.eq_empty_iff_forall_notMem]
        intro s hc
        exact hs (mem_claims_of_claimsOf _ ((mem_claimsOf _).2 ((mem_sourcesOf _).1 hc)))
      rw [this]; simp
  have hpri : ∀ c, priorOf [(0, 0, 1), (1, 0, 2), (2, 1, 5)] .uniform c = 1 / (rivals [(0, 0, 1), (1, 0, 2), (2, 1, 5)] c).card := fun _ => rfl
  have hval : ∀ j, 1 ≤ j → ∀ y : Scores Nat Nat Nat, y = (investStep [(0, 0, 1), (1, 0, 2), (2, 1, 5)] 1)^[j] ((fun _ => 1), priorOf [(0, 0, 1), (1, 0, 2), (2, 1, 5)] .uniform) →
      (y.1 0 = 1 / 2 ∧ y.1 1 = 1 / 2 ∧ y.1 2 = 1) ∧ y.2 (0, 1) = 1 / 2 ∧ y.2 (0, 2) = 1 / 2 ∧ y.2 (1, 5) = 1 := by
    intro j hj
    induction j, hj using Nat.le_induction with
    | base =>
      rintro y rfl
      refine three_step _ ⟨one_pos, one_pos, one_pos⟩ ⟨?_, ?_, ?_⟩
      · refine (hpri _).trans ?_
        rw [show (rivals [(0, 0, 1), (1, 0, 2), (2, 1, 5)] (0, 1)).card = 2 by decide]; norm_num
      · refine (hpri _).trans ?_
        rw [show (rivals [(0, 0, 1), (1, 0, 2), (2, 1, 5)] (0, 2)).card = 2 by decide]; norm_num
      · refine (hpri _).trans ?_
        rw [show (rivals [(0, 0, 1), (1, 0, 2), (2, 1, 5)] (1, 5)).card = 1 by decide]; norm_num
    | succ j hj ih =>
      rintro y rfl
      have ih := ih _ rfl
      rw [Function.iterate_succ_apply']
      refine three_step _ ⟨?_, ?_, ?_⟩ ih.2
      · rw [ih.1.1]; norm_num
      · rw [ih.1.2.1]; norm_num
      · rw [ih.1.2.2]; norm_num
  have hsmall : (2 : ℝ) ^ (-159 : ℤ) ≤ 1 / 2 := by
    have := p2_le (a := -159) (b := -1) (by norm_num)
    rw [zpow_neg_one] at this
    exact this.trans (by norm_num)
  obtain ⟨r, hr, -, hc⟩ := C104_investment_fixed (ω := ω) [(0, 0, 1), (1, 0, 2), (2, 1, 5)] (by simp) false none _ hd (by decide) (by decide)
    ha hb 1 one_pos (by norm_num) .uniform 10 (by norm_num) (fun j h1 _ => by
      obtain ⟨⟨a1, a2, a3⟩, b1, b2, b3⟩ := hval j h1 _ rfl
      constructor
      · intro s hs
        rw [show allSources [(0, 0, 1), (1, 0, 2), (2, 1, 5)] = {0, 1, 2} by decide] at hs
        simp only [Finset.mem_insert, Finset.mem_singleton] at hs
        rcases hs with rfl | rfl | rfl
        · rw [a1]; exact hsmall
        · rw [a2]; exact hsmall
        · rw [a3]; exact hsmall.trans (by norm_num)
      · intro c hs
        rw [show allClaims [(0, 0, 1), (1, 0, 2), (2, 1, 5)] = {(0, 1), (0, 2), (1, 5)} by decide] at hs
        simp only [Finset.mem_insert, Finset.mem_singleton] at hs
        rcases hs with rfl | rfl | rfl
        · rw [b1]; exact hsmall
        · rw [b2]; exact hsmall
        · rw [b3]; exact hsmall.trans (by norm_num)) (by norm_num) 100 (by norm_num) clock {}
  exact ⟨_, r, hd, hr, hc, by norm_num⟩

end TD
