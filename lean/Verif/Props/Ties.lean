import Verif.Lemmas.FixedSums
import Verif.Lemmas.Twins
import Verif.Props.InvestDouble
import Verif.Props.Endless
import Verif.Props.Results
import Verif.Props.Symmetry
/-!
# C98: Ties in double precision
-/

namespace TD
open Spec
attribute [-instance] instBEqProd
variable {S V X : Type} [DecidableEq S] [DecidableEq V] [DecidableEq X]

section
variable {α : Type} [Arith α] {l : List (S × V × X)} {f : Option (V → X → X → Option α)}

theorem twin_labels {A β : Type} [DecidableEq A] {as : List A} {x y : A} (hx : x ∈ as) (hy : y ∈ as) {F : A → β}
    (h : Twin (as.idxOf x) (as.idxOf y) (as.map F)) : F x = F y := by
  unfold Twin at h
  rw [List.getElem?_map, List.getElem?_map] at h
  have e : ∀ z ∈ as, as[as.idxOf z]? = some z := fun z hz => by
    rw [List.getElem?_eq_getElem (List.idxOf_lt_length_iff.2 hz), List.getElem_idxOf]
  rw [e x hx, e y hy] at h
  exact Option.some.inj h

theorem twin_of_labels {A β : Type} [DecidableEq A] {as : List A} {x y : A} (hx : x ∈ as) (hy : y ∈ as) {F : A → β}
    (h : F x = F y) : Twin (as.idxOf x) (as.idxOf y) (as.map F) := by
  unfold Twin
  have e : ∀ z ∈ as, as[as.idxOf z]? = some z := fun z hz => by
    rw [List.getElem?_eq_getElem (List.idxOf_lt_length_iff.2 hz), List.getElem_idxOf]
  rw [List.getElem?_map, List.getElem?_map, e x hx, e y hy]
  simp [h]

theorem copies_mem {a b : S} (hab : ∀ c, (a, c) ∈ recorded l ↔ (b, c) ∈ recorded l) :
    a ∈ sources l ↔ b ∈ sources l := by
  have key : ∀ {x y : S}, (∀ c, (x, c) ∈ recorded l → (y, c) ∈ recorded l) → x ∈ sources l → y ∈ sources l := by
    intro x y h hx
    obtain ⟨c, hc⟩ := claimsOf_nonempty l hx
    exact mem_sources_of_sourcesOf l ((mem_sourcesOf l).2 (h c ((mem_claimsOf l).1 hc)))
  exact ⟨key fun c => (hab c).1, key fun c => (hab c).2⟩

theorem copies_rows {a b : S} (hab : ∀ c, (a, c) ∈ recorded l ↔ (b, c) ∈ recorded l) (ha : a ∈ sources l) :
    Twin ((sources l).idxOf a) ((sources l).idxOf b) (matsOf l f).sc.rows := by
  rw [sc_eq_ofRel]
  refine twin_of_labels ha ((copies_mem hab).1 ha) ?_
  have : (scL l a : V × X → Option α) = scL l b := by
    funext c
    exact congrArg oneIf (decide_eq_decide.2 (hab c))
  rw [this]

theorem copies_result {a b : S} (hab : ∀ c, (a, c) ∈ recorded l ↔ (b, c) ∈ recorded l) {t bl : Vec α}
    (hs : Sized (matsOf l f) t bl)
    (ht : a ∈ sources l → Twin ((sources l).idxOf a) ((sources l).idxOf b) t) (time : α) (it : Option Nat) :
    (resultOf l t bl time it).trust.get? a = (resultOf l t bl time it).trust.get? b := by
  obtain ⟨F, rfl⟩ := exists_labels (nodup_sources l) hs.1 (Arith.ofNat 0)
  rw [trust_resultOf, trust_resultOf]
  by_cases ha : a ∈ sources l
  · have hb := (copies_mem hab).1 ha
    rw [if_pos ha, if_pos hb, twin_labels ha hb (ht ha)]
  · rw [if_neg ha, if_neg (fun hb => ha ((copies_mem hab).2 hb))]

/-- **C98.** Two sources that make the same claims get the same trust from every algorithm, in every arithmetic: in
double precision the two numbers are the same, not just close. -/
theorem C98_copies (h10 : Arith.eq (Arith.ofNat 1 : α) (Arith.ofNat 0) = false) {am : Bool} {d : Dataset S V X α}
    (hd : Dataset.mk' l am f = .ok d) {a b : S} (hab : ∀ c, (a, c) ∈ recorded l ↔ (b, c) ∈ recorded l) {c : AlgCfg α}
    {fuel : Nat} {clock : Nat → α} {st : IterState α} {r : Result S V X α} (hr : c.run d fuel clock st = .ok r) :
    r.trust.get? a = r.trust.get? b := by
  obtain ⟨rfl, -, -⟩ := (mk'_ok_iff l h10 am f d).1 hd
  rw [run_eq] at hr
  cases he : c.exec (matsOf l f) fuel st with
  | error e => rw [he] at hr; cases hr
  | ok o =>
    rw [he] at hr
    cases hr
    refine copies_result hab (exec_sized (matsOf_wf l f) he).1 (fun ha => ?_) _ _
    exact (twin_exec (copies_rows hab ha) (List.idxOf_lt_length_iff.2 ha)
      (List.idxOf_lt_length_iff.2 ((copies_mem hab).1 ha)) he).1

/-- **C98.** So they do in every partial result. -/
theorem C98_copies_iter (h10 : Arith.eq (Arith.ofNat 1 : α) (Arith.ofNat 0) = false) {am : Bool} {d : Dataset S V X α}
    (hd : Dataset.mk' l am f = .ok d) {a b : S} (hab : ∀ c, (a, c) ∈ recorded l ↔ (b, c) ∈ recorded l) {c : AlgCfg α}
    {fuel : Nat} {clock : Nat → α} {st : IterState α} {rs : List (Result S V X α)}
    (hr : c.runIter d fuel clock st = .ok rs) : ∀ r ∈ rs, r.trust.get? a = r.trust.get? b := by
  obtain ⟨rfl, -, -⟩ := (mk'_ok_iff l h10 am f d).1 hd
  rw [runIter_eq] at hr
  cases he : c.exec (matsOf l f) fuel st with
  | error e => rw [he] at hr; cases hr
  | ok o =>
    rw [he] at hr
    cases hr
    intro r hm
    obtain ⟨⟨n, e⟩, hp, rfl⟩ := List.mem_map.1 hm
    have hp' : e ∈ o.log := by
      have : (enum o.log).map Prod.snd = o.log := enum_map_snd _
      rw [← this]
      exact List.mem_map.2 ⟨_, hp, rfl⟩
    refine copies_result hab ((exec_sized (matsOf_wf l f) he).2 e hp') (fun ha => ?_) _ _
    exact (twin_exec (copies_rows hab ha) (List.idxOf_lt_length_iff.2 ha)
      (List.idxOf_lt_length_iff.2 ((copies_mem hab).1 ha)) he).2 e hp'

/-- The classes whose belief in a claim depends on the trust in its sources only. -/
def OwnSources (f : Option (V → X → X → Option α)) : Kind α → Prop
  | .pooledInvestment _ => False
  | .truthFinder _ _ _ => f = none
  | _ => True

/-- **C98.** Two claims made by the same sources get the same belief in every arithmetic, once an iteration has been
carried out, from Sums, AverageLog, Investment, CRH and UnboundedSums, and from TruthFinder without implications.
(PooledInvestment compares a claim with the others on its variable.) -/
theorem C98_claims (h10 : Arith.eq (Arith.ofNat 1 : α) (Arith.ofNat 0) = false) {am : Bool} {d : Dataset S V X α}
    (hd : Dataset.mk' l am f = .ok d) {v w : V} {x y : X}
    (hvw : ∀ s, (s, v, x) ∈ recorded l ↔ (s, w, y) ∈ recorded l) {c : AlgCfg α} (hk : OwnSources f c.kind)
    {fuel : Nat} {clock : Nat → α} {st : IterState α} {r : Result S V X α} (hr : c.run d fuel clock st = .ok r)
    (hn : r.iterations ≠ some 0) :
    (r.belief.get? v).bind (fun q => q.get? x) = (r.belief.get? w).bind (fun q => q.get? y) := by
  obtain ⟨rfl, -, -⟩ := (mk'_ok_iff l h10 am f d).1 hd
  rw [run_eq] at hr
  cases he : c.exec (matsOf l f) fuel st with
  | error e => rw [he] at hr; cases hr
  | ok o =>
    rw [he] at hr
    cases hr
    have hmem : (v, x) ∈ claims l ↔ (w, y) ∈ claims l := by
      rw [mem_claims l, mem_claims l]
      constructor
      · rintro ⟨⟨s, c⟩, h, rfl⟩
        exact ⟨(s, w, y), (hvw s).1 h, rfl⟩
      · rintro ⟨⟨s, c⟩, h, rfl⟩
        exact ⟨(s, v, x), (hvw s).2 h, rfl⟩
    have hs := (exec_sized (matsOf_wf l f) he).1
    by_cases hv : (v, x) ∈ claims l
    · have hw := hmem.1 hv
      have hi := List.idxOf_lt_length_iff.2 hv
      have hj := List.idxOf_lt_length_iff.2 hw
      have hT : Twin ((claims l).idxOf (v, x)) ((claims l).idxOf (w, y)) (matsOf l f).sc.T.rows := by
        rw [scT_eq_ofRel]
        refine twin_of_labels hv hw ?_
        have : (fun s => (scL l s (v, x) : Option α)) = fun s => scL l s (w, y) := by
          funext s
          exact congrArg oneIf (decide_eq_decide.2 (hvw s))
        simp only [funext_iff] at this
        simp only [this]
      have hB : BeliefOf ((claims l).idxOf (v, x)) ((claims l).idxOf (w, y)) (matsOf l f) c.kind := by
        cases hkd : c.kind with
        | pooledInvestment g => rw [hkd] at hk; exact hk.elim
        | truthFinder rho gamma t0 =>
          rw [hkd] at hk
          obtain rfl : f = none := hk
          refine ⟨?_, ?_⟩
          · intro r hr
            obtain ⟨k, -, rfl⟩ := List.mem_map.1 hr
            simp
          · intro r hr
            obtain ⟨k, -, rfl⟩ := List.mem_map.1 hr
            rw [lookup_row _ _ _ List.nodup_range, lookup_row _ _ _ List.nodup_range, if_pos (List.mem_range.2 hi),
              if_pos (List.mem_range.2 hj)]
            have e : ∀ z ∈ claims l, (claims l)[(claims l).idxOf z]? = some z := fun z hz => by
              rw [List.getElem?_eq_getElem (List.idxOf_lt_length_iff.2 hz), List.getElem_idxOf]
            simp only [scRel, e _ hv, e _ hw]
            cases (sources l)[k]? with
            | none => rfl
            | some s => exact congrArg oneIf (decide_eq_decide.2 (hvw s))
        | _ => trivial
      obtain ⟨-, t0, b0, n, st', t, b, L, -, -, hst, -, hf, hit, -⟩ := (exec_ok_iff c _ fuel st o).1 he
      have h1 := (twin_steps_belief hT hi hj hB hst).1 (by
        rcases n with _ | n
        · exact absurd (by simp [resultOf, hit]) hn
        · omega)
      have h2 := twin_finish_belief h1 hf
      obtain ⟨F, hF⟩ := exists_labels (nodup_claims l) hs.2 (Arith.ofNat 0)
      rw [hF] at h2 ⊢
      rw [belief_resultOf, belief_resultOf, if_pos hv, if_pos hw, twin_labels hv hw h2]
    · have hw : (w, y) ∉ claims l := fun h => hv (hmem.2 h)
      obtain ⟨F, hF⟩ := exists_labels (nodup_claims l) hs.2 (Arith.ofNat 0)
      rw [hF, belief_resultOf, belief_resultOf, if_neg hv, if_neg hw]

end

namespace Fixed
variable {ω : Platform} {m : Mats (FP (.binary64 ω))} {rows cols : List (List Nat)}

/-- `k` iterations of Sums. -/
def sums? (rows cols : List (List Nat)) : Nat → List Nat × List Nat → Option (List Nat × List Nat)
  | 0, s => some s
  | k + 1, s => do
    let t ← rows.mapM (row? s.2)
    let b ← cols.mapM (row? t)
    sums? rows cols k (← normalise? t, ← normalise? b)

theorem sums_val (hr : m.sc.rows = onesAt rows) (hc : m.sc.T.rows = onesAt cols) {n : Nat} {s s' : List Nat × List Nat}
    (h : sums? rows cols n s = some s') (k : Nat) :
    ∃ L, Steps (IterCfg.fixed ((k + n : Nat) : Int)) (sumsBody m) ⟨k, none, 0⟩ (s.1.map val) (s.2.map val) n
      ⟨k + n, none, 0⟩ (s'.1.map val) (s'.2.map val) L := by
  induction n generalizing s k with
  | zero =>
    obtain rfl := Option.some.inj h
    exact ⟨_, .refl _ _ _⟩
  | succ n ih =>
    rw [sums?] at h
    simp only [bind, Option.bind_eq_some_iff] at h
    obtain ⟨t, h1, b, h2, t', h3, b', h4, h5⟩ := h
    obtain ⟨L, hL⟩ := ih h5 (k + 1)
    rw [show k + 1 + n = k + (n + 1) by omega] at hL
    refine ⟨_, .cons (s := ⟨s.1.map val, t'.map val, t'.map val, b'.map val⟩) ?_ ?_ rfl hL⟩
    · have : ¬ ((k + (n + 1) : Nat) : Int) ≤ k := by omega
      simp only [IterCfg.finished]
      simp only [ge_iff_le, this, decide_false]
    · simp only [sumsBody, mulVec_val hr h1, mulVec_val hc h2, normalise_val h3, normalise_val h4]
      rfl

theorem sums_run {l : List (Nat × Nat × Nat)}
    (hr : (matsOf l none : Mats (FP (.binary64 ω))).sc.rows = onesAt rows)
    (hc : (matsOf l none : Mats (FP (.binary64 ω))).sc.T.rows = onesAt cols)
    (h0 : (matsOf l none : Mats (FP (.binary64 ω))).numClaims ≠ 0) {t b : List Nat}
    (h : sums? rows cols 20 (List.replicate (sources l).length 0, List.replicate (claims l).length (2 ^ 61)) = some (t, b))
    {fuel : Nat} (hf : 20 < fuel) (clock : Nat → FP (.binary64 ω)) :
    (⟨.sums, .fixed 20, some .fixed⟩ : AlgCfg (FP (.binary64 ω))).run (datasetOf l none) fuel clock =
      .ok (resultOf l (t.map val) (b.map val) (clock 1 -. clock 0) (some 20)) := by
  obtain ⟨L, hL⟩ := sums_val hr hc h 0
  have half : (Arith.lit 1 2 : FP (.binary64 ω)) = val (2 ^ 61) := by
    have : (Rounding.binary64 ω).rnd (1 / 2 : ℝ) = .fin (1 / 2) := by
      have := rep64_pow (ω := ω) (e := -1) (by norm_num) (by norm_num)
      simpa [Rep] using this
    have e : (Arith.lit 1 2 : FP (.binary64 ω)) = FP.fin (1 / 2) := by
      show _ = FNum.fin (1 / 2)
      rw [← this]
      show (Rounding.binary64 ω).rnd _ = _
      norm_num
    rw [e, val]
    congr 1
    norm_num
  have hi : (⟨.sums, .fixed 20, some .fixed⟩ : AlgCfg (FP (.binary64 ω))).init (matsOf l none) =
      .ok ((List.replicate (sources l).length 0).map val, (List.replicate (claims l).length (2 ^ 61)).map val) := by
    simp only [AlgCfg.init, priorBeliefs, bind, Except.bind, pure, Except.pure, half, List.map_replicate, zeros,
      FP.zero_eq, val_zero]
    rfl
  have hex := (exec_ok_iff (⟨.sums, .fixed 20, some .fixed⟩ : AlgCfg (FP (.binary64 ω)))
      (matsOf l none) fuel {} ⟨_, _, 20, _⟩).2
      ⟨h0, _, _, 20, _, _, _, L, hi, hf, hL, .inl rfl, rfl, rfl, rfl⟩
  rw [run_eq, hex]

theorem most_val {S V X : Type} [DecidableEq S] [DecidableEq V] [DecidableEq X] {r : Result S V X (FP (.binary64 ω))} {v : V}
    {d : Dict X Nat} (hr : r.belief.get? v = some (d.map fun p => (p.1, val p.2))) (hne : d ≠ []) :
    r.mostBelieved v = .ok ((d.filter fun p => decide (∀ q ∈ d, q.2 ≤ p.2)).map Prod.fst) := by
  have h := C43_most_believed _ r v _ hr (by simpa using hne) (by
    intro p hp
    obtain ⟨q, -, rfl⟩ := List.mem_map.1 hp
    exact nofun)
  rw [h, List.filter_map, List.map_map]
  congr 2
  apply List.filter_congr
  intro p _
  simp only [Function.comp]
  refine decide_eq_decide.2 ?_
  simp only [List.forall_mem_map]
  refine forall₂_congr fun q _ => ?_
  show ((q.2 : ℝ) / 2 ^ 62 : ℝ).toEReal ≤ ((p.2 : ℝ) / 2 ^ 62 : ℝ).toEReal ↔ _
  rw [EReal.coe_le_coe_iff, div_le_div_iff_of_pos_right (by positivity), Nat.cast_le]

end Fixed

section
variable {ω : Platform}
open Fixed

/-- Sources 0 and 1 agree about variables 0 and 2 and disagree about variable 1; source 2 makes one claim. -/
abbrev tie₁ : List (Nat × Nat × Nat) := [(0, 0, 0), (0, 1, 1), (0, 2, 1), (1, 0, 0), (1, 1, 0), (1, 2, 1), (2, 0, 0)]
/-- The second and third triples exchanged. -/
abbrev tie₂ : List (Nat × Nat × Nat) := [(0, 0, 0), (0, 2, 1), (0, 1, 1), (1, 0, 0), (1, 1, 0), (1, 2, 1), (2, 0, 0)]
/-- The triples of source 1 first. -/
abbrev tie₃ : List (Nat × Nat × Nat) := [(1, 0, 0), (1, 1, 0), (1, 2, 1), (0, 0, 0), (0, 1, 1), (0, 2, 1), (2, 0, 0)]

theorem tie_sums : sums? [[0, 1, 2], [0, 2, 3], [0]] [[0, 1, 2], [0], [0, 1], [1]] 20
      (List.replicate 3 0, List.replicate 4 (2 ^ 61)) =
      some ([4611686018427387904, 4611686018427386880, 2072905562219705088],
        [4611686018427387904, 1882712933179080192, 3765425866358160384, 1882712933179079936]) ∧
    sums? [[0, 1, 2], [0, 1, 3], [0]] [[0, 1, 2], [0, 1], [0], [1]] 20
      (List.replicate 3 0, List.replicate 4 (2 ^ 61)) =
      some ([4611686018427387904, 4611686018427387904, 2072905562219705344],
        [4611686018427387904, 3765425866358160384, 1882712933179080192, 1882712933179080192]) := by
  decide +kernel

/-- **C98.** Without copies a tie may be broken by rounding, and the winner depends on the order of the triples.  In
double precision, Sums with its default settings finds value 1 of variable 1 the most believed, or both values, or
value 0, for three orders of the same seven claims. -/
theorem C98_order (clock : Nat → FP (.binary64 ω)) (fuel : Nat) (hf : 20 < fuel) :
    ∃ (alg : AnyAlg (FP (.binary64 ω))) (d₁ d₂ d₃ : Dataset Nat Nat Nat (FP (.binary64 ω)))
      (r₁ r₂ r₃ : Result Nat Nat Nat (FP (.binary64 ω))),
      makeAlg .sums [] = .ok alg ∧
      Dataset.mk' [(0, 0, 0), (0, 1, 1), (0, 2, 1), (1, 0, 0), (1, 1, 0), (1, 2, 1), (2, 0, 0)] false none = .ok d₁ ∧
      Dataset.mk' [(0, 0, 0), (0, 2, 1), (0, 1, 1), (1, 0, 0), (1, 1, 0), (1, 2, 1), (2, 0, 0)] false none = .ok d₂ ∧
      Dataset.mk' [(1, 0, 0), (1, 1, 0), (1, 2, 1), (0, 0, 0), (0, 1, 1), (0, 2, 1), (2, 0, 0)] false none = .ok d₃ ∧
      alg.run d₁ fuel clock = .ok r₁ ∧ alg.run d₂ fuel clock = .ok r₂ ∧ alg.run d₃ fuel clock = .ok r₃ ∧
      r₁.mostBelieved 1 = .ok [1] ∧ r₂.mostBelieved 1 = .ok [1, 0] ∧ r₃.mostBelieved 1 = .ok [0] := by
  have hd : ∀ l ∈ [tie₁, tie₂, tie₃], Dataset.mk' l false none = .ok (datasetOf l none : Dataset Nat Nat Nat (FP (.binary64 ω))) := by
    intro l hl
    refine (mk'_ok_iff l (one_ne_zero_fp (R := .binary64 ω)) false none _).2 ⟨rfl, .inr ?_, by simp [optImpBad]⟩
    simp only [List.mem_cons, List.not_mem_nil, or_false] at hl
    rcases hl with rfl | rfl | rfl <;> simp [NoRepeats]
  have e₁ := sums_run (l := tie₁) (ω := ω) rfl rfl (show (4 : Nat) ≠ 0 by decide) tie_sums.1 hf clock
  have e₂ := sums_run (l := tie₂) (ω := ω) rfl rfl (show (4 : Nat) ≠ 0 by decide) tie_sums.2 hf clock
  have e₃ := sums_run (l := tie₃) (ω := ω) rfl rfl (show (4 : Nat) ≠ 0 by decide) tie_sums.1 hf clock
  refine ⟨.iter ⟨.sums, .fixed 20, some .fixed⟩, _, _, _, _, _, _, rfl, hd tie₁ (by simp), hd tie₂ (by simp),
    hd tie₃ (by simp), e₁, e₂, e₃, ?_, ?_, ?_⟩
  · exact (most_val (d := [(1, 1882712933179080192), (0, 1882712933179079936)]) rfl (by simp)).trans (by decide)
  · exact (most_val (d := [(1, 1882712933179080192), (0, 1882712933179080192)]) rfl (by simp)).trans (by decide)
  · exact (most_val (d := [(0, 1882712933179080192), (1, 1882712933179079936)]) rfl (by simp)).trans (by decide)

/-- Exchange sources 0 and 1 and the values 0 and 1 of variable 1. -/
def tieMirror : Renaming Nat Nat Nat Nat Nat Nat where
  source := Equiv.swap 0 1
  var := id
  val v := if v = 1 then Equiv.swap 0 1 else id
  source_inj := fun _ _ h => (Equiv.swap 0 1).injective h
  var_inj _ _ h := h
  val_inj v a b h := by
    split at h
    · exact (Equiv.swap 0 1).injective h
    · exact h

/-- **C98.** In exact arithmetic the two values have the same belief, for every order of the same claims. -/
theorem C98_exact {l : List (Nat × Nat × Nat)} (hl : l.Perm tie₁) {d : Dataset Nat Nat Nat Ex}
    (hd : Dataset.mk' l false none = .ok d) {fuel : Nat} {clock : Nat → Ex} {r : Result Nat Nat Nat Ex}
    (hr : (⟨.sums, .fixed 20, some .fixed⟩ : AlgCfg Ex).run d fuel clock = .ok r) :
    (r.belief.get? 1).bind (fun q => q.get? 0) = (r.belief.get? 1).bind (fun q => q.get? 1) := by
  have hn : NoRepeats l := by
    have := ((mk'_ok_iff l ex_one_ne_zero false none _).1 hd).2.1
    simpa using this
  have hne : l ≠ [] := by
    rintro rfl
    simpa using hl.length_eq
  have hrec : ∀ t, t ∈ recorded l ↔ t ∈ tie₁ := by
    intro t
    rw [recorded_eq_self hn]
    exact hl.mem_iff
  have hm : ∀ t, t ∈ recorded (tieMirror.triples l) ↔ t ∈ recorded l := by
    rintro ⟨s, v, x⟩
    rw [recorded_rename, hrec, Renaming.triples, List.mem_map]
    constructor
    · rintro ⟨t, ht, e⟩
      rw [hrec] at ht
      simp only [tie₁, List.mem_cons, List.not_mem_nil, or_false] at ht
      rcases ht with rfl | rfl | rfl | rfl | rfl | rfl | rfl <;> · rw [← e]; decide
    · intro ht
      simp only [tie₁, List.mem_cons, List.not_mem_nil, or_false, Prod.mk.injEq] at ht
      rcases ht with ⟨rfl, rfl, rfl⟩ | ⟨rfl, rfl, rfl⟩ | ⟨rfl, rfl, rfl⟩ | ⟨rfl, rfl, rfl⟩ | ⟨rfl, rfl, rfl⟩ |
        ⟨rfl, rfl, rfl⟩ | ⟨rfl, rfl, rfl⟩
      · exact ⟨(1, 0, 0), (hrec _).2 (by decide), by decide⟩
      · exact ⟨(1, 1, 0), (hrec _).2 (by decide), by decide⟩
      · exact ⟨(1, 2, 1), (hrec _).2 (by decide), by decide⟩
      · exact ⟨(0, 0, 0), (hrec _).2 (by decide), by decide⟩
      · exact ⟨(0, 1, 1), (hrec _).2 (by decide), by decide⟩
      · exact ⟨(0, 2, 1), (hrec _).2 (by decide), by decide⟩
      · exact ⟨(2, 0, 0), (hrec _).2 (by decide), by decide⟩
  exact (C68_run (f := none) tieMirror hm trivial hd hne (show Sound l _ by simp [Sound]) hr).2 1 1

/-- Copies, and two claims with the same sources, in a run of the default Sums in double precision. -/
example (clock : Nat → FP (.binary64 ω)) : ∃ (l : List (Nat × Nat × Nat)) (d : Dataset Nat Nat Nat (FP (.binary64 ω)))
    (r : Result Nat Nat Nat (FP (.binary64 ω))), Dataset.mk' l false none = .ok d ∧
    (⟨.sums, .fixed 20, some .fixed⟩ : AlgCfg (FP (.binary64 ω))).run d 21 clock = .ok r ∧ r.iterations ≠ some 0 ∧
    (∀ c, (0, c) ∈ recorded l ↔ (1, c) ∈ recorded l) ∧ (∀ s, (s, 0, 0) ∈ recorded l ↔ (s, 1, 0) ∈ recorded l) ∧
    r.trust.get? 0 = r.trust.get? 1 ∧
    (r.belief.get? 0).bind (fun q => q.get? 0) = (r.belief.get? 1).bind (fun q => q.get? 0) := by
  let l : List (Nat × Nat × Nat) := [(0, 0, 0), (0, 1, 0), (1, 1, 0), (1, 0, 0), (2, 0, 1)]
  have hn : NoRepeats l := by simp [l, NoRepeats]
  have hd := (mk'_ok_iff l (one_ne_zero_fp (R := .binary64 ω)) false none _).2 ⟨rfl, .inr hn, by simp [optImpBad]⟩
  have hs : ∃ s, sums? [[0, 1], [0, 1], [2]] [[0, 1], [0, 1], [2]] 20
      (List.replicate 3 0, List.replicate 3 (2 ^ 61)) = some s := Option.isSome_iff_exists.1 (by decide +kernel)
  obtain ⟨⟨t, b⟩, hs⟩ := hs
  have hr := sums_run (l := l) (ω := ω) rfl rfl (show (3 : Nat) ≠ 0 by decide) hs (fuel := 21) (by norm_num) clock
  have h1 : ∀ c, (0, c) ∈ recorded l ↔ (1, c) ∈ recorded l := by
    intro c
    rw [recorded_eq_self hn]
    simp only [l, List.mem_cons, Prod.mk.injEq, List.not_mem_nil]
    simp [or_comm]
  have h2 : ∀ s, (s, 0, 0) ∈ recorded l ↔ (s, 1, 0) ∈ recorded l := by
    intro s
    rw [recorded_eq_self hn]
    simp only [l, List.mem_cons, Prod.mk.injEq, List.not_mem_nil]
    simp
  exact ⟨l, _, _, hd, hr, by simp [resultOf], h1, h2, C98_copies one_ne_zero_fp hd h1 hr,
    C98_claims one_ne_zero_fp hd h2 (c := ⟨.sums, .fixed 20, some .fixed⟩) trivial hr (by simp [resultOf])⟩

end

end TD
