import Verif.Props.Algorithms
import Verif.Props.Runs
import Verif.Lemmas.Distance
/-!
# C32 (second half), C35 (boundary): when the formulas break down
-/

namespace TD
open Spec Ex
attribute [-instance] instBEqProd

variable {S V X : Type} [DecidableEq S] [DecidableEq V] [DecidableEq X]

namespace Ex
@[simp] theorem nan_add (x : Ex) : (nan +. x) = nan := by cases x <;> rfl
@[simp] theorem add_nan (x : Ex) : (x +. nan) = nan := by cases x <;> rfl
@[simp] theorem nan_sub (x : Ex) : (nan -. x) = nan := by cases x <;> rfl
@[simp] theorem sub_nan (x : Ex) : (x -. nan) = nan := by cases x <;> rfl
@[simp] theorem nan_mul (x : Ex) : (nan *. x) = nan := by cases x <;> rfl
@[simp] theorem mul_nan (x : Ex) : (x *. nan) = nan := by cases x <;> rfl
@[simp] theorem nan_div (x : Ex) : (nan /. x) = nan := by cases x <;> rfl
@[simp] theorem div_nan (x : Ex) : (x /. nan) = nan := by cases x <;> rfl
@[simp] theorem abs_nan : Arith.abs (nan : Ex) = nan := rfl
@[simp] theorem sqrt_nan : Arith.sqrt (nan : Ex) = nan := rfl
@[simp] theorem nan_lt (x : Ex) : Arith.lt nan x = false := by cases x <;> rfl
@[simp] theorem lt_nan (x : Ex) : Arith.lt x nan = false := by cases x <;> rfl
@[simp] theorem nan_eq (x : Ex) : Arith.eq nan x = false := by cases x <;> rfl
@[simp] theorem eq_nan (x : Ex) : Arith.eq x nan = false := by cases x <;> rfl
end Ex

/-- All entries are NaN. -/
def AllNan (v : Vec Ex) : Prop := ∀ x ∈ v, x = nan

theorem foldl_nan {B : Type} (L : List B) (g : Ex → B → Ex) (hg : ∀ b, g nan b = nan) :
    L.foldl g nan = nan := by
  induction L with
  | nil => rfl
  | cons b L ih => rw [List.foldl_cons, hg, ih]

theorem foldl_hits_nan {B : Type} (L : List B) (g : Ex → B → Ex) (hg : ∀ b, g nan b = nan) {b : B}
    (hb : b ∈ L) (hb' : ∀ a, g a b = nan) (a : Ex) : L.foldl g a = nan := by
  induction L generalizing a with
  | nil => simp at hb
  | cons c L ih =>
    rw [List.foldl_cons]
    rcases List.mem_cons.1 hb with rfl | hb
    · rw [hb']; exact foldl_nan L g hg
    · exact ih hb _

theorem normalise_nan {v : Vec Ex} (hne : v ≠ []) (h : AllNan v) :
    ∃ w, normalise v = .ok w ∧ AllNan w ∧ w.length = v.length := by
  cases v with
  | nil => exact absurd rfl hne
  | cons x xs =>
    obtain ⟨m, hm⟩ : ∃ m, pyMax (x :: xs) = .ok m := ⟨_, rfl⟩
    refine ⟨(x :: xs).map (· /. m), by simp [normalise, hm, bind, Except.bind, pure, Except.pure], ?_, by simp⟩
    intro y hy
    obtain ⟨z, hz, rfl⟩ := List.mem_map.1 hy
    rw [h z hz, nan_div]

theorem normalise_zero {A : Type} {as : List A} (hne : as ≠ []) :
    ∃ w, normalise (as.map fun _ => fin 0) = .ok w ∧ AllNan w ∧ w.length = as.length := by
  classical
  have h := Ex.pyMax_eq hne (fun _ : A => (0 : ℝ))
  have htop : top as.toFinset (fun _ : A => (0 : ℝ)) = 0 := by
    obtain ⟨a, -, e⟩ := top_mem (F := as.toFinset) (f := fun _ : A => (0 : ℝ))
      (by obtain ⟨a, ha⟩ := List.exists_mem_of_ne_nil _ hne; exact ⟨a, by simpa using ha⟩)
    exact e.symm
  rw [htop] at h
  refine ⟨(as.map fun _ => fin 0).map (· /. fin 0), by
    simp only [normalise, h, bind, Except.bind, pure, Except.pure], ?_, by simp⟩
  intro y hy
  simp only [List.mem_map] at hy
  obtain ⟨_, ⟨_, -, rfl⟩, rfl⟩ := hy
  exact zero_div_zero

section
variable {l : List (S × V × X)} {f : Option (V → X → X → Option Ex)}

theorem sc_mulVec_nan (b : Vec Ex) (hb : AllNan b) (hlen : b.length = (claims l).length) :
    AllNan ((matsOf l f).sc.mulVec b) ∧ ((matsOf l f).sc.mulVec b).length = (sources l).length := by
  have e : b = (claims l).map fun _ => nan := by
    rw [List.eq_replicate_iff.2 ⟨hlen, hb⟩]; simp
  subst e
  rw [sc_eq_ofRel, Mat.mulVec_ofRel]
  refine ⟨?_, by simp⟩
  intro x hx
  obtain ⟨s, hs, rfl⟩ := List.mem_map.1 hx
  obtain ⟨c, hc⟩ := claimsOf_nonempty l hs
  unfold rowDot
  refine foldl_hits_nan _ _ ?_ (mem_claims_of_claimsOf l hc) ?_ _
  · intro d; unfold rowStep; cases scL (α := Ex) l s d <;> simp
  · intro a
    unfold rowStep
    rw [scL_eq, if_pos ((mem_claimsOf l).1 hc)]
    simp

theorem scT_mulVec_nan (t : Vec Ex) (ht : AllNan t) (hlen : t.length = (sources l).length) :
    AllNan ((matsOf l f).sc.T.mulVec t) ∧ ((matsOf l f).sc.T.mulVec t).length = (claims l).length := by
  have e : t = (sources l).map fun _ => nan := by
    rw [List.eq_replicate_iff.2 ⟨hlen, ht⟩]; simp
  subst e
  rw [scT_eq_ofRel, Mat.mulVec_ofRel]
  refine ⟨?_, by simp⟩
  intro x hx
  obtain ⟨c, hc, rfl⟩ := List.mem_map.1 hx
  obtain ⟨s, hs⟩ := sourcesOf_nonempty l hc
  unfold rowDot
  refine foldl_hits_nan _ _ ?_ (mem_sources_of_sourcesOf l hs) ?_ _
  · intro d; unfold rowStep; dsimp only; cases scL (α := Ex) l d c <;> simp
  · intro a
    unfold rowStep
    dsimp only
    rw [scL_eq, if_pos ((mem_sourcesOf l).1 hs)]
    simp

/-- The state all runs are in after one iteration. -/
def NanState (l : List (S × V × X)) (t b : Vec Ex) : Prop :=
  AllNan t ∧ AllNan b ∧ t.length = (sources l).length ∧ b.length = (claims l).length

/-- First iteration, from finite beliefs. -/
theorem avlog_first (hl : l ≠ []) (hone : ∀ s ∈ sources l, (claimsOf l s).card = 1) (t : Vec Ex)
    (b : V × X → ℝ) :
    ∃ s, avlogBody (matsOf l f) t (repC l b) = .ok (some s) ∧ NanState l s.trust s.belief ∧
      s.cmp1 = s.trust ∧ s.cmp2 = t := by
  have hw : vzip Arith.mul (avlogWeights (matsOf l f)) (repS l (sumTrust l b)) =
      repS l fun _ => 0 := by
    rw [avlogWeights_rep]
    apply vzipS
    intro s hs
    rw [mul_eq]
    simp [nClaims, hone s hs]
  have hz : sumBelief l (fun _ => 0) = fun _ => 0 := by funext c; simp [sumBelief]
  obtain ⟨w1, e1, n1, l1⟩ := normalise_zero (sources_ne hl)
  obtain ⟨w2, e2, n2, l2⟩ := normalise_zero (claims_ne hl)
  have e1' : normalise (repS l fun _ => 0) = .ok w1 := e1
  have e2' : normalise (repC l fun _ => 0) = .ok w2 := e2
  refine ⟨⟨w1, t, w1, w2⟩, ?_, ⟨n1, n2, l1, l2⟩, rfl, rfl⟩
  simp only [avlogBody, sc_repC, hw, scT_repS, hz, e1', e2', bind, Except.bind, pure, Except.pure]

theorem vzip_nan {v w : Vec Ex} (hw : AllNan w) (hlen : v.length = w.length) :
    AllNan (vzip Arith.mul v w) ∧ (vzip Arith.mul v w).length = w.length := by
  refine ⟨?_, by simp [vzip, hlen]⟩
  intro x hx
  obtain ⟨i, hi, rfl⟩ := List.mem_iff_getElem.1 hx
  simp only [vzip, List.getElem_zipWith]
  rw [hw _ (List.getElem_mem _), mul_nan]

/-- Later iterations. -/
theorem avlog_later (hl : l ≠ []) {t b : Vec Ex} (h : NanState l t b) :
    ∃ s, avlogBody (matsOf l f) t b = .ok (some s) ∧ NanState l s.trust s.belief ∧
      s.cmp1 = s.trust ∧ s.cmp2 = t := by
  obtain ⟨n1, l1⟩ := sc_mulVec_nan (f := f) b h.2.1 h.2.2.2
  have hwl : (avlogWeights (matsOf l f)).length = (sources l).length := by
    rw [avlogWeights_rep]; simp [repS]
  obtain ⟨n2, l2⟩ := vzip_nan (v := avlogWeights (matsOf l f)) n1 (by rw [l1, hwl])
  rw [l1] at l2
  obtain ⟨n3, l3⟩ := scT_mulVec_nan (f := f) _ n2 l2
  obtain ⟨w1, e1, m1, k1⟩ := normalise_nan (by rw [← List.length_pos_iff, l2, List.length_pos_iff]; exact sources_ne hl) n2
  obtain ⟨w2, e2, m2, k2⟩ := normalise_nan (by rw [← List.length_pos_iff, l3, List.length_pos_iff]; exact claims_ne hl) n3
  refine ⟨⟨w1, t, w1, w2⟩, ?_, ⟨m1, m2, by rw [k1, l2], by rw [k2, l3]⟩, rfl, rfl⟩
  simp only [avlogBody, e1, e2, bind, Except.bind, pure, Except.pure]

theorem nan_steps (hl : l ≠ []) {it : IterCfg Ex} {st : IterState Ex} {t b : Vec Ex}
    (h : NanState l t b) {n st' t' b' L}
    (hs : Steps it (avlogBody (matsOf l f)) st t b n st' t' b' L) : NanState l t' b' := by
  induction hs with
  | refl => exact h
  | cons _ hb _ _ ih =>
    obtain ⟨s, e, hn, -, -⟩ := avlog_later (f := f) hl h
    rw [e] at hb
    obtain rfl := Option.some.inj (Except.ok.inj hb)
    exact ih hn

/-- **C32.** If every source makes exactly one claim, every score is NaN after the
first iteration, whatever the priors and the iterator. -/
theorem C32_nan (l : List (S × V × X)) (am : Bool) (f : Option (V → X → X → Option Ex))
    (d : Dataset S V X Ex) (h : Dataset.mk' l am f = .ok d)
    (hone : ∀ s ∈ allSources l, (claimsOf l s).card = 1) (it : IterCfg Ex) (p : Prior) (fuel : Nat)
    (clock : Nat → Ex) (st : IterState Ex) (r : Result S V X Ex)
    (hr : (⟨.averageLog, it, some p⟩ : AlgCfg Ex).run d fuel clock st = .ok r)
    (k : Nat) (hk : r.iterations = some k) (hk1 : 1 ≤ k) :
    (∀ s, r.trust.get? s = if s ∈ allSources l then some nan else none) ∧
    (∀ v x, (r.belief.get? v).bind (fun d => d.get? x) =
      if (v, x) ∈ allClaims l then some nan else none) := by
  obtain rfl := mk'_ex h
  rw [run_eq] at hr
  cases he : (⟨.averageLog, it, some p⟩ : AlgCfg Ex).exec (matsOf l f) fuel st with
  | error e => rw [he] at hr; simp at hr
  | ok out =>
    rw [he] at hr
    simp only [Except.ok.injEq] at hr
    subst hr
    obtain ⟨h0, t0, b0, n, st', t, b, L, hi, -, hs, -, hf, hit, -⟩ := (exec_ok_iff _ _ _ _ _).1 he
    have hl : l ≠ [] := fun e => h0 ((numClaims_zero l f).2 e)
    have hn : out.iterations = n := hit
    have hkn : k = n := by rw [← hn]; simp [resultOf] at hk; exact hk.symm
    subst hkn
    have hi' : (⟨.averageLog, it, some p⟩ : AlgCfg Ex).init (matsOf l f) =
        .ok (repS l fun _ => 0, repC l (priorOf l p)) := by
      simp only [AlgCfg.init, priorBeliefs_rep, bind, Except.bind, pure, Except.pure]
      rw [zeros_sources]; rfl
    rw [hi'] at hi
    obtain ⟨rfl, rfl⟩ := Prod.mk.inj (Except.ok.inj hi)
    have hstate : NanState l t b := by
      have hs : Steps it (avlogBody (matsOf l f)) {} _ _ k st' t b L := hs
      cases hs with
      | refl => omega
      | cons _ hb _ hs' =>
        obtain ⟨s, e, hns, -, -⟩ := avlog_first (f := f) hl
          (fun s hs => hone s ((mem_allSources l).2 hs)) (repS l fun _ => 0) (priorOf l p)
        rw [e] at hb
        obtain rfl := Option.some.inj (Except.ok.inj hb)
        exact nan_steps hl hns hs'
    have hf : Except.ok (t, b) = Except.ok (out.trust, out.belief) := hf
    obtain ⟨rfl, rfl⟩ := Prod.mk.inj (Except.ok.inj hf)
    have et : out.trust = (sources l).map fun _ => nan := by
      rw [List.eq_replicate_iff.2 ⟨hstate.2.2.1, hstate.1⟩]; simp
    have eb : out.belief = (claims l).map fun _ => nan := by
      rw [List.eq_replicate_iff.2 ⟨hstate.2.2.2, hstate.2.1⟩]; simp
    constructor
    · intro s
      simp only [resultOf, et]
      rw [get?_zip_map (nodup_sources l)]
      simp only [mem_allSources]
    · intro v x
      simp only [resultOf, eb]
      by_cases h : (v, x) ∈ allClaims l
      · rw [if_pos h, mem_beliefOf (nodup_claims l)]
        rw [mem_allClaims] at h
        obtain ⟨j, hj⟩ := List.mem_iff_getElem?.1 h
        refine ⟨j, hj, ?_⟩
        rw [List.getElem?_map, hj]; rfl
      · rw [if_neg h, Option.eq_none_iff_forall_ne_some]
        intro a ha
        obtain ⟨j, hj, -⟩ := (mem_beliefOf (nodup_claims l)).1 ha
        exact h ((mem_allClaims l).2 (List.mem_of_getElem? hj))

/-- **C32.** With a fixed number of iterations the run succeeds, and shows these NaNs. -/
theorem C32_nan_fixed (l : List (S × V × X)) (am : Bool) (f : Option (V → X → X → Option Ex))
    (d : Dataset S V X Ex) (h : Dataset.mk' l am f = .ok d) (hl : l ≠ [])
    (hone : ∀ s ∈ allSources l, (claimsOf l s).card = 1) (p : Prior) (N fuel : Nat) (hN : 1 ≤ N)
    (hfuel : N < fuel) (clock : Nat → Ex) (st : IterState Ex) :
    ∃ r, (⟨.averageLog, .fixed N, some p⟩ : AlgCfg Ex).run d fuel clock st = .ok r ∧
      r.iterations = some N ∧
      (∀ s, r.trust.get? s = if s ∈ allSources l then some nan else none) ∧
      (∀ v x, (r.belief.get? v).bind (fun d => d.get? x) =
        if (v, x) ∈ allClaims l then some nan else none) := by
  have hd := h
  obtain rfl := mk'_ex h
  have hi' : (⟨.averageLog, .fixed N, some p⟩ : AlgCfg Ex).init (matsOf l f) =
      .ok (repS l fun _ => 0, repC l (priorOf l p)) := by
    simp only [AlgCfg.init, priorBeliefs_rep, bind, Except.bind, pure, Except.pure]
    rw [zeros_sources]; rfl
  have hlater : ∀ n, ∀ st : IterState Ex, ∀ t b, NanState l t b → st.itCount + n ≤ N →
      ∃ st' t' b' L, Steps (.fixed N) (avlogBody (matsOf l f)) st t b n st' t' b' L ∧
        st'.itCount = st.itCount + n := by
    intro n
    induction n with
    | zero => intro st t b _ _; exact ⟨st, t, b, [], .refl _ _ _, rfl⟩
    | succ n ih =>
      intro st t b hs hn
      obtain ⟨s, e, hns, -, -⟩ := avlog_later (f := f) hl hs
      obtain ⟨st', t', b', L, h1, h2⟩ := ih { st with itCount := st.itCount + 1 } s.trust s.belief hns
        (by simp; omega)
      refine ⟨st', t', b', _, .cons ?_ e ?_ h1, by rw [h2]; simp; omega⟩
      · simp only [IterCfg.finished, Except.ok.injEq, decide_eq_false_iff_not]; omega
      · rfl
  obtain ⟨s, e, hns, -, -⟩ := avlog_first (f := f) hl
    (fun s hs => hone s ((mem_allSources l).2 hs)) (repS l fun _ => 0) (priorOf l p)
  obtain ⟨st', t', b', L, h1, h2⟩ := hlater (N - 1) ⟨1, none, 0⟩ s.trust s.belief hns (by simp; omega)
  have hsteps : Steps (.fixed N) (avlogBody (matsOf l f)) {} (repS l fun _ => 0)
      (repC l (priorOf l p)) (N - 1 + 1) st' t' b' (⟨1, s.trust, s.belief⟩ :: L) := by
    refine .cons ?_ e ?_ h1
    · simp only [IterCfg.finished, Except.ok.injEq, decide_eq_false_iff_not]
      show ¬ ((0 : Int) ≥ N)
      omega
    · rfl
  have hex : (⟨.averageLog, .fixed N, some p⟩ : AlgCfg Ex).exec (matsOf l f) fuel st =
      .ok ⟨t', b', N - 1 + 1, initLog (⟨.averageLog, .fixed N, some p⟩ : AlgCfg Ex) (repS l fun _ => 0)
        (repC l (priorOf l p)) ++ (⟨1, s.trust, s.belief⟩ :: L)⟩ := by
    rw [exec_ok_iff]
    refine ⟨Implements.numClaims_ne hl, _, _, N - 1 + 1, st', _, _, _, hi', by omega, hsteps, .inl ?_, rfl,
      rfl, rfl⟩
    simp only [IterCfg.finished, Except.ok.injEq, decide_eq_true_eq]
    rw [h2]; simp; omega
  have hrun : (⟨.averageLog, .fixed N, some p⟩ : AlgCfg Ex).run (datasetOf l f) fuel clock st =
      .ok (resultOf l t' b' (clock 1 -. clock 0) (some (N - 1 + 1))) := by rw [run_eq, hex]
  have hit : (some (N - 1 + 1)) = some N := by congr 1; omega
  exact ⟨_, hrun, hit, C32_nan l am f _ hd hone _ p fuel clock st _ hrun N hit hN⟩

/-- Any distance to a NaN vector is NaN (for the cosine measure the other vector
must not be 0). -/
theorem distance_nan {v w : Vec Ex} (hv : AllNan v) (hne : v ≠ []) (hlen : v.length = w.length)
    {ms : Measure} (hms : ms ≠ .cosine) : getDistance (some ms) v w = .ok nan := by
  have hd : vzip Arith.sub v w = List.replicate v.length nan := by
    rw [List.eq_replicate_iff]
    refine ⟨by simp [vzip, hlen], ?_⟩
    intro x hx
    obtain ⟨i, hi, rfl⟩ := List.mem_iff_getElem.1 hx
    simp only [vzip, List.getElem_zipWith]
    rw [hv _ (List.getElem_mem _), nan_sub]
  obtain ⟨n, hn⟩ : ∃ n, v.length = n + 1 :=
    ⟨v.length - 1, by have := List.length_pos_iff.2 hne; omega⟩
  rw [hn, List.replicate_succ] at hd
  cases ms with
  | l1 =>
    simp only [getDistance, hd, List.map_cons, abs_nan]
    congr 1
    exact sum_nan _ List.mem_cons_self
  | l2 =>
    simp only [getDistance, hd, norm2]
    congr 1
    have : Arith.dot (nan :: List.replicate n nan) (nan :: List.replicate n nan) = (nan : Ex) := by
      have := dot_nan (R := .exact) (as := List.replicate (n + 1) ()) (g := fun _ => nan) (h := fun _ => nan)
        ⟨(), by simp, rfl⟩
      rwa [List.map_replicate, List.replicate_succ] at this
    rw [this, sqrt_nan]
  | lInf =>
    simp only [getDistance, hd, List.map_cons, abs_nan, npMax]
    congr 1
    apply foldl_nan
    intro b
    simp [isNan]
  | cosine => exact absurd rfl hms

theorem avlog_far (hl : l ≠ []) {ms : Measure} (hms : ms ≠ .cosine) (th : Ex) (i : Nat)
    {t b : Vec Ex} (h : NanState l t b) : FarAt (avlogBody (matsOf l f)) (some ms) th t b i := by
  induction i generalizing t b with
  | zero =>
    obtain ⟨s, e, hn, e1, e2⟩ := avlog_later (f := f) hl h
    refine ⟨nan, ?_, by simp⟩
    have hd := distance_nan (v := s.cmp1) (w := s.cmp2) (by rw [e1]; exact hn.1)
      (by rw [e1, ← List.length_pos_iff, hn.2.2.1, List.length_pos_iff]; exact sources_ne hl)
      (by rw [e1, e2, hn.2.2.1, h.2.2.1]) hms
    simp [distNo, passNo, e, hd]
  | succ i ih =>
    obtain ⟨s, e, hn, e1, e2⟩ := avlog_later (f := f) hl h
    obtain ⟨x, h1, h2⟩ := ih hn
    exact ⟨x, by rw [distNo_succ e]; exact h1, h2⟩

/-- **C32.** ... and therefore with a convergence iterator (any measure but the
cosine) the run always raises `ConvergenceError`, whatever threshold and limit. -/
theorem C32_nan_never_converges (l : List (S × V × X)) (am : Bool)
    (f : Option (V → X → X → Option Ex)) (d : Dataset S V X Ex) (h : Dataset.mk' l am f = .ok d)
    (hl : l ≠ []) (hone : ∀ s ∈ allSources l, (claimsOf l s).card = 1) (p : Prior) (ms : Measure)
    (hms : ms ≠ .cosine) (th : Ex) (lim : Int) (fuel : Nat) (hfuel : lim.toNat < fuel)
    (clock : Nat → Ex) (st : IterState Ex) :
    (⟨.averageLog, .conv (some ms) th lim, some p⟩ : AlgCfg Ex).run d fuel clock st =
      .error .convergence := by
  obtain rfl := mk'_ex h
  rw [run_eq]
  have hi' : (⟨.averageLog, .conv (some ms) th lim, some p⟩ : AlgCfg Ex).init (matsOf l f) =
      .ok (repS l fun _ => 0, repC l (priorOf l p)) := by
    simp only [AlgCfg.init, priorBeliefs_rep, bind, Except.bind, pure, Except.pure]
    rw [zeros_sources]; rfl
  have := (conv_error_iff (⟨.averageLog, .conv (some ms) th lim, some p⟩ : AlgCfg Ex)
    (some ms) th lim rfl (datasetOf l f) fuel hfuel st).2
    ⟨mt (numClaims_zero l f).1 hl, _, _, hi', ?_⟩
  · have e : (datasetOf l f).mats = matsOf l f := rfl
    rw [e] at this
    rw [this]
  · intro i _
    obtain ⟨s, e, hn, e1, e2⟩ := avlog_first (f := f) hl
      (fun s hs => hone s ((mem_allSources l).2 hs)) (repS l fun _ => 0) (priorOf l p)
    show FarAt (avlogBody (matsOf l f)) (some ms) th _ _ i
    cases i with
    | zero =>
      refine ⟨nan, ?_, by simp⟩
      have hd := distance_nan (v := s.cmp1) (w := s.cmp2) (by rw [e1]; exact hn.1)
        (by rw [e1, ← List.length_pos_iff, hn.2.2.1, List.length_pos_iff]; exact sources_ne hl)
        (by rw [e1, e2, hn.2.2.1]; simp [repS]) hms
      simp [distNo, passNo, e, hd]
    | succ i =>
      obtain ⟨x, h1, h2⟩ := avlog_far (f := f) hl hms th i hn
      exact ⟨x, by rw [distNo_succ e]; exact h1, h2⟩

/-- The 2-norm of a NaN vector. -/
theorem norm2_nan {v : Vec Ex} (hv : AllNan v) (hne : v ≠ []) : norm2 v = nan := by
  obtain ⟨n, hn⟩ : ∃ n, v.length = n + 1 :=
    ⟨v.length - 1, by have := List.length_pos_iff.2 hne; omega⟩
  have e : v = List.replicate (n + 1) nan := List.eq_replicate_iff.2 ⟨hn, hv⟩
  have := dot_nan (R := .exact) (as := List.replicate (n + 1) ()) (g := fun _ => nan) (h := fun _ => nan)
    ⟨(), by simp, rfl⟩
  rw [List.map_replicate] at this
  rw [norm2, e, show Arith.dot (List.replicate (n + 1) nan) (List.replicate (n + 1) nan) = (nan : Ex) from this,
    sqrt_nan]

/-- The cosine distance of a NaN vector to zeros is 1: one of the norms is 0. -/
theorem cosine_nan_zero (l : List (S × V × X)) (v : Vec Ex) :
    getDistance (some .cosine) v (repS l fun _ => 0) = .ok (fin 1) := by
  have h0 : norm2 (repS l fun _ => 0) = fin 0 := by
    refine (norm2_eq (nodup_sources l) fun _ => 0).trans ?_
    simp [len2]
  simp [getDistance, h0]

/-- The cosine distance of two NaN vectors is NaN. -/
theorem cosine_nan {v w : Vec Ex} (hv : AllNan v) (hv0 : v ≠ []) (hw : AllNan w) (hw0 : w ≠ []) :
    getDistance (some .cosine) v w = .ok nan := by
  simp [getDistance, norm2_nan hv hv0, norm2_nan hw hw0, clip01]

theorem avlog_far_cosine (hl : l ≠ []) (th : Ex) (i : Nat)
    {t b : Vec Ex} (h : NanState l t b) : FarAt (avlogBody (matsOf l f)) (some .cosine) th t b i := by
  have ne : ∀ {v : Vec Ex}, v.length = (sources l).length → v ≠ [] := fun hv => by
    rw [← List.length_pos_iff, hv, List.length_pos_iff]; exact sources_ne hl
  induction i generalizing t b with
  | zero =>
    obtain ⟨s, e, hn, e1, e2⟩ := avlog_later (f := f) hl h
    refine ⟨nan, ?_, by simp⟩
    have hd := cosine_nan (v := s.cmp1) (w := s.cmp2) (by rw [e1]; exact hn.1) (by rw [e1]; exact ne hn.2.2.1)
      (by rw [e2]; exact h.1) (by rw [e2]; exact ne h.2.2.1)
    simp [distNo, passNo, e, hd]
  | succ i ih =>
    obtain ⟨s, e, hn, e1, e2⟩ := avlog_later (f := f) hl h
    obtain ⟨x, h1, h2⟩ := ih hn
    exact ⟨x, by rw [distNo_succ e]; exact h1, h2⟩

/-- **C32.** With the cosine measure the first distance is 1 (the starting trust
vector is 0) and all later ones are NaN: unless the threshold is above 1, the run
raises `ConvergenceError` as with the other measures. -/
theorem C32_nan_cosine (l : List (S × V × X)) (am : Bool)
    (f : Option (V → X → X → Option Ex)) (d : Dataset S V X Ex) (h : Dataset.mk' l am f = .ok d)
    (hl : l ≠ []) (hone : ∀ s ∈ allSources l, (claimsOf l s).card = 1) (p : Prior)
    (th : Ex) (hth : Arith.lt (fin 1) th = false) (lim : Int) (fuel : Nat) (hfuel : lim.toNat < fuel)
    (clock : Nat → Ex) (st : IterState Ex) :
    (⟨.averageLog, .conv (some .cosine) th lim, some p⟩ : AlgCfg Ex).run d fuel clock st =
      .error .convergence := by
  obtain rfl := mk'_ex h
  rw [run_eq]
  have hi' : (⟨.averageLog, .conv (some .cosine) th lim, some p⟩ : AlgCfg Ex).init (matsOf l f) =
      .ok (repS l fun _ => 0, repC l (priorOf l p)) := by
    simp only [AlgCfg.init, priorBeliefs_rep, bind, Except.bind, pure, Except.pure]
    rw [zeros_sources]; rfl
  have := (conv_error_iff (⟨.averageLog, .conv (some .cosine) th lim, some p⟩ : AlgCfg Ex)
    (some .cosine) th lim rfl (datasetOf l f) fuel hfuel st).2
    ⟨mt (numClaims_zero l f).1 hl, _, _, hi', ?_⟩
  · have e : (datasetOf l f).mats = matsOf l f := rfl
    rw [e] at this
    rw [this]
  · intro i _
    obtain ⟨s, e, hn, e1, e2⟩ := avlog_first (f := f) hl
      (fun s hs => hone s ((mem_allSources l).2 hs)) (repS l fun _ => 0) (priorOf l p)
    show FarAt (avlogBody (matsOf l f)) (some .cosine) th _ _ i
    cases i with
    | zero =>
      refine ⟨fin 1, ?_, hth⟩
      have hd := cosine_nan_zero l s.cmp1
      rw [← e2] at hd
      simp [distNo, passNo, e, hd]
    | succ i =>
      obtain ⟨x, h1, h2⟩ := avlog_far_cosine (f := f) hl th i hn
      exact ⟨x, by rw [distNo_succ e]; exact h1, h2⟩

/-- **C32.** ... and with a threshold above 1 it takes this distance for
convergence: the run succeeds after one iteration, and shows NaNs only. -/
theorem C32_nan_cosine_above (l : List (S × V × X)) (am : Bool)
    (f : Option (V → X → X → Option Ex)) (d : Dataset S V X Ex) (h : Dataset.mk' l am f = .ok d)
    (hl : l ≠ []) (hone : ∀ s ∈ allSources l, (claimsOf l s).card = 1) (p : Prior)
    (th : Ex) (hth : Arith.lt (fin 1) th = true) (lim : Int) (hlim : 1 ≤ lim) (fuel : Nat) (hfuel : 1 < fuel)
    (clock : Nat → Ex) (st : IterState Ex) :
    ∃ r, (⟨.averageLog, .conv (some .cosine) th lim, some p⟩ : AlgCfg Ex).run d fuel clock st = .ok r ∧
      r.iterations = some 1 ∧
      (∀ s, r.trust.get? s = if s ∈ allSources l then some nan else none) ∧
      (∀ v x, (r.belief.get? v).bind (fun d => d.get? x) =
        if (v, x) ∈ allClaims l then some nan else none) := by
  have hd := h
  obtain rfl := mk'_ex h
  have hi' : (⟨.averageLog, .conv (some .cosine) th lim, some p⟩ : AlgCfg Ex).init (matsOf l f) =
      .ok (repS l fun _ => 0, repC l (priorOf l p)) := by
    simp only [AlgCfg.init, priorBeliefs_rep, bind, Except.bind, pure, Except.pure]
    rw [zeros_sources]; rfl
  obtain ⟨s, e, hns, e1, e2⟩ := avlog_first (f := f) hl
    (fun s hs => hone s ((mem_allSources l).2 hs)) (repS l fun _ => 0) (priorOf l p)
  have hg := cosine_nan_zero l s.cmp1
  rw [← e2] at hg
  have hsteps : Steps (.conv (some .cosine) th lim) (avlogBody (matsOf l f)) {} (repS l fun _ => 0)
      (repC l (priorOf l p)) 1 ⟨1, some (fin 1), 0⟩ s.trust s.belief [⟨1, s.trust, s.belief⟩] := by
    refine .cons (n := 0) ?_ e ?_ (.refl _ _ _)
    · simp only [IterCfg.finished, IterState.below, Bool.false_eq_true, if_false]
      rw [if_neg]
      show ¬ ((0 : Int) ≥ lim)
      omega
    · simp only [IterCfg.compare, hg, bind, Except.bind, pure, Except.pure]
  have hex : (⟨.averageLog, .conv (some .cosine) th lim, some p⟩ : AlgCfg Ex).exec (matsOf l f) fuel st =
      .ok ⟨s.trust, s.belief, 1, initLog (⟨.averageLog, .conv (some .cosine) th lim, some p⟩ : AlgCfg Ex)
        (repS l fun _ => 0) (repC l (priorOf l p)) ++ [⟨1, s.trust, s.belief⟩]⟩ := by
    rw [exec_ok_iff]
    refine ⟨Implements.numClaims_ne hl, _, _, 1, _, _, _, _, hi', hfuel, hsteps, .inl ?_, rfl, rfl, rfl⟩
    simp only [IterCfg.finished, IterState.below, hth, if_true]
  have hrun : (⟨.averageLog, .conv (some .cosine) th lim, some p⟩ : AlgCfg Ex).run (datasetOf l f) fuel clock st =
      .ok (resultOf l s.trust s.belief (clock 1 -. clock 0) (some 1)) := by rw [run_eq, hex]
  exact ⟨_, hrun, rfl, C32_nan l am f _ hd hone _ p fuel clock st _ hrun 1 rfl le_rfl⟩

/-- Thresholds of both kinds. -/
example : Arith.lt (fin 1) (fin (1 / 10000)) = false ∧ Arith.lt (fin 1) (fin 2) = true := by
  constructor <;> simp <;> norm_num

end

/-- Two disagreeing sources with one claim each. -/
example : ∀ s ∈ allSources [("s", "x", 1), ("t", "x", 2)],
    (claimsOf [("s", "x", 1), ("t", "x", 2)] s).card = 1 := by decide

/-- **C35**, boundary: with initial trust 1 TruthFinder finishes before the first
iteration and reports the initial scores. -/
theorem C35_initial_trust_one (l : List (S × V × X)) (am : Bool)
    (f : Option (V → X → X → Option Ex)) (d : Dataset S V X Ex) (h : Dataset.mk' l am f = .ok d)
    (hl : l ≠ []) (pr : Option Prior) (rho gamma : Ex) (N fuel : Nat) (hfuel : 0 < fuel)
    (clock : Nat → Ex) (st : IterState Ex) :
    ∃ r, (⟨.truthFinder rho gamma (fin 1), .fixed N, pr⟩ : AlgCfg Ex).run d fuel clock st = .ok r ∧
      r.iterations = some 0 ∧ Reports l r ((fun _ => 1), (fun _ => 0)) := by
  obtain rfl := mk'_ex h
  have hi : (⟨.truthFinder rho gamma (fin 1), .fixed N, pr⟩ : AlgCfg Ex).init (matsOf l f) =
      .ok (repS l fun _ => 1, repC l fun _ => 0) := by
    simp only [AlgCfg.init]
    congr 2
    · show List.replicate (sources l).length _ = _
      simp [repS]
    · exact zeros_claims l _
  have hb : tfBody rho gamma (matsOf l f) (repS l fun _ => 1) (repC l fun _ => 0) = .ok none := by
    obtain ⟨s, hs⟩ := List.exists_mem_of_ne_nil _ (sources_ne hl)
    have : ((repS l fun _ => 1).any fun t => Arith.eq t (Arith.ofNat 1)) = true := by
      rw [List.any_eq_true]
      exact ⟨fin 1, List.mem_map.2 ⟨s, hs, rfl⟩, by simp⟩
    simp only [tfBody, logTrust, this, ↓reduceIte]
  have hex : (⟨.truthFinder rho gamma (fin 1), .fixed N, pr⟩ : AlgCfg Ex).exec (matsOf l f) fuel st =
      .ok ⟨repS l fun _ => 1, repC l fun _ => 0, 0,
        initLog ⟨.truthFinder rho gamma (fin 1), .fixed N, pr⟩ (repS l fun _ => 1) (repC l fun _ => 0) ++ []⟩ := by
    rw [exec_ok_iff]
    refine ⟨Implements.numClaims_ne hl, _, _, 0, {}, _, _, [], hi, hfuel, .refl _ _ _, ?_, rfl, rfl, rfl⟩
    by_cases hN : N = 0
    · left; subst hN; simp [IterCfg.finished]
    · right
      refine ⟨?_, hb⟩
      simp only [IterCfg.finished, Except.ok.injEq, decide_eq_false_iff_not]
      push_cast
      omega
  exact ⟨_, by rw [run_eq, hex], rfl, reports_resultOf l ((fun _ => 1), fun _ => 0) _ _⟩

end TD
