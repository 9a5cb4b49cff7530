import Verif.Lemmas.Results
import Verif.Spec.Diff
import Verif.Props.Ranking
import Mathlib.Algebra.Order.BigOperators.Group.List
import Mathlib.Algebra.BigOperators.Ring.List
/-!
# C43, C44, C46, C47: most believed values, filtering, statistics, differences
-/

namespace TD
open Spec

variable {S V X : Type} [DecidableEq S] [DecidableEq V] [DecidableEq X]

/-! ### C43 -/

theorem neg_lt_iff {R : Rounding} {a b : FP R} (ha : a ≠ FP.nan) (hb : b ≠ FP.nan) :
    Arith.lt (Arith.neg a) (Arith.neg b) = decide (FP.val b < FP.val a) := by
  show FNum.lt (FNum.neg a) (FNum.neg b) = _
  cases a <;> cases b <;> first
    | exact absurd rfl ha
    | exact absurd rfl hb
    | (simp only [FNum.neg, FNum.lt, FP.val, FNum.toEReal, decide_eq_decide, EReal.coe_lt_coe_iff]; simp; done)
    | (simp only [FNum.neg, FNum.lt, FP.val, FNum.toEReal, decide_eq_decide]
       simp [EReal.bot_lt_coe, EReal.coe_lt_top, ← EReal.coe_neg])

open Classical in
/-- **C43.** If the variable has at least one value and no belief is NaN,
`get_most_believed_values` yields exactly the values whose belief no other
exceeds, each as often as it occurs in the dictionary (once), in dictionary order. -/
theorem C43_most_believed (R : Rounding) (r : Result S V X (FP R)) (v : V) (d : Dict X (FP R))
    (hd : r.belief.get? v = some d) (hne : d ≠ []) (hn : ∀ p ∈ d, p.2 ≠ FP.nan) :
    r.mostBelieved v = .ok ((d.filter fun p =>
      decide (∀ q ∈ d, FP.val q.2 ≤ FP.val p.2)).map Prod.fst) := by
  set k : X × FP R → ERealᵒᵈ := fun p => OrderDual.toDual (FP.val p.2) with hk
  obtain ⟨e1, -⟩ := pySorted_congr (L := d)
    (lt := fun p q => Arith.lt (Arith.neg p.2) (Arith.neg q.2))
    (lt' := fun p q => decide (k p < k q)) (by
      intro p hp q hq
      rw [neg_lt_iff (hn p hp) (hn q hq)]; rfl)
  obtain ⟨s1, s2, s3⟩ := pySorted_spec (k := k) (lt := fun p q => decide (k p < k q))
    (fun _ _ => rfl) d
  unfold Result.mostBelieved
  simp only [Dict.get, hd, Bind.bind, Except.bind]
  rw [e1]
  generalize pySorted (fun p q => decide (k p < k q)) d = L at s1 s2 s3
  cases L with
  | nil => exact absurd (s2.symm.eq_nil) hne
  | cons p L =>
    show Except.ok _ = _
    congr 1
    have hp : p ∈ d := s2.mem_iff.1 (by simp)
    have e2 : (p :: L).takeWhile (fun q => !Arith.lt q.2 p.2) =
        (p :: L).takeWhile (fun a => !decide (k p < k a)) := by
      have : ∀ M : List (X × FP R), (∀ q ∈ M, q ∈ d) →
          M.takeWhile (fun q => !Arith.lt q.2 p.2) = M.takeWhile (fun a => !decide (k p < k a)) := by
        intro M
        induction M with
        | nil => simp
        | cons a M ih =>
          intro hM
          have h1 := (keyed_of_not_nan (v := [a.2, p.2]) (by
            intro x hx
            simp only [List.mem_cons, List.not_mem_nil, or_false] at hx
            rcases hx with rfl | rfl
            · exact hn a (hM a (by simp))
            · exact hn p hp) a.2 (by simp) p.2 (by simp)).1
          rw [List.takeWhile_cons, List.takeWhile_cons, h1,
            ih fun q hq => hM q (by simp [hq])]
          rfl
      exact this _ fun q hq => s2.mem_iff.1 hq
    rw [e2, takeWhile_sorted s1, s3]
    congr 1
    refine List.filter_congr ?_
    intro a ha
    rw [decide_eq_decide]
    have hmin : ∀ q ∈ d, k p ≤ k q := by
      intro q hq
      rcases List.mem_cons.1 (s2.mem_iff.2 hq) with rfl | hq
      · exact le_refl _
      · exact (List.pairwise_cons.1 s1).1 q hq
    constructor
    · intro he q hq
      have := hmin q hq
      rw [← he] at this
      exact this
    · intro h
      exact le_antisymm (h p hp) (hmin a ha)

/-- **C43.** At least one value is yielded, and exactly the values with maximal
belief are. -/
theorem C43_maximal (R : Rounding) (r : Result S V X (FP R)) (v : V) (d : Dict X (FP R))
    (hd : r.belief.get? v = some d) (hne : d ≠ []) (hn : ∀ p ∈ d, p.2 ≠ FP.nan)
    (hu : (d.map Prod.fst).Nodup) :
    ∃ xs, r.mostBelieved v = .ok xs ∧ xs ≠ [] ∧ xs.Nodup ∧
      ∀ x, x ∈ xs ↔ ∃ b, d.get? x = some b ∧
        ∀ y c, d.get? y = some c → FP.val c ≤ FP.val b := by
  classical
  refine ⟨_, C43_most_believed R r v d hd hne hn, ?_, ?_, ?_⟩
  · obtain ⟨p, hp, hmax⟩ := d.toFinset.exists_max_image (fun p => FP.val p.2)
      ⟨d.head hne, by simp⟩
    rw [ne_eq, List.map_eq_nil_iff, List.filter_eq_nil_iff]
    push Not
    refine ⟨p, by simpa using hp, ?_⟩
    rw [decide_eq_true_eq]
    exact fun q hq => hmax q (by simpa using hq)
  · exact hu.sublist ((List.filter_sublist).map _)
  · intro x
    simp only [List.mem_map, List.mem_filter, decide_eq_true_eq]
    constructor
    · rintro ⟨⟨y, b⟩, ⟨h1, h2⟩, rfl⟩
      exact ⟨b, lookup_some_of_mem hu h1, fun z c hc => h2 (z, c) (mem_of_lookup_some hc)⟩
    · rintro ⟨b, h1, h2⟩
      refine ⟨(x, b), ⟨mem_of_lookup_some h1, ?_⟩, rfl⟩
      rintro ⟨y, c⟩ hq
      exact h2 y c (lookup_some_of_mem hu hq)

/-- **C43.** An unknown variable raises `KeyError`, a variable without values
`IndexError`; nothing else is ever raised. -/
theorem C43_errors {α : Type} [Arith α] (r : Result S V X α) (v : V) :
    (r.mostBelieved v = .error .keyError ↔ r.belief.get? v = none) ∧
    (r.mostBelieved v = .error .indexError ↔ r.belief.get? v = some []) ∧
    (∀ e, r.mostBelieved v = .error e → e = .keyError ∨ e = .indexError) := by
  have hnil : ∀ d : Dict X α, pySorted (fun p q => Arith.lt (Arith.neg p.2) (Arith.neg q.2)) d = [] ↔
      d = [] := by
    intro d
    have : ∀ (lt : X × α → X × α → Bool) (d : List (X × α)), (pySorted lt d).Perm d := by
      intro lt d
      induction d using List.reverseRecOn with
      | nil => simp [pySorted]
      | append_singleton L x ih =>
        have e : pySorted lt (L ++ [x]) = insertBy lt x (pySorted lt L) := by
          simp [pySorted, List.foldl_append]
        rw [e]
        exact (insertBy_perm x _).trans ((ih.cons x).trans (List.perm_append_singleton x L).symm)
    constructor
    · intro h
      have hp := this (fun p q => Arith.lt (Arith.neg p.2) (Arith.neg q.2)) d
      rw [h] at hp
      exact hp.symm.eq_nil
    · rintro rfl; rfl
  unfold Result.mostBelieved
  cases h : r.belief.get? v with
  | none => simp [Dict.get, h, Bind.bind, Except.bind]
  | some d =>
    simp only [Dict.get, h, Bind.bind, Except.bind]
    cases hs : pySorted (fun p q => Arith.lt (Arith.neg p.2) (Arith.neg q.2)) d with
    | nil => 
      have := (hnil d).1 hs
      subst this
      simp [throw, throwThe, MonadExceptOf.throw]
    | cons p L =>
      have : d ≠ [] := fun hd => by rw [(hnil d).2 hd] at hs; cases hs
      simp [pure, Except.pure, this]

/-- Non-vacuity: a variable with a tie. -/
example : ∃ (r : Result Nat Nat Nat Ex) (d : Dict Nat Ex), r.belief.get? 7 = some d ∧ d ≠ [] ∧
    (∀ p ∈ d, p.2 ≠ FP.nan) ∧ (d.map Prod.fst).Nodup ∧ 
    (∃ x y, x ≠ y ∧ (x, Ex.fin 1) ∈ d ∧ (y, Ex.fin 1) ∈ d) :=
  ⟨⟨[], [(7, [(3, Ex.fin 1), (1, Ex.fin 0), (2, Ex.fin 1)])], Ex.fin 0, none⟩, _, rfl, by simp,
    (by simp only [List.mem_cons, List.not_mem_nil, or_false]; rintro p (rfl | rfl | rfl) h <;> cases h),
    by simp, 3, 2, by simp⟩

/-! ### C44 -/
section filter
variable {α : Type} [Arith α]

/-- **C44.** Scores of the requested known sources and variables are kept, all
other sources and variables are gone, time and iterations are untouched; `None`
filters nothing. -/
theorem C44_filter (r : Result S V X α) (ss : Option (List S)) (vs : Option (List V)) :
    (∀ s, (r.filter ss vs).trust.get? s =
      if (∀ l, ss = some l → s ∈ l) then r.trust.get? s else none) ∧
    (∀ v, (r.filter ss vs).belief.get? v =
      if (∀ l, vs = some l → v ∈ l) then r.belief.get? v else none) ∧
    (r.filter ss vs).time = r.time ∧ (r.filter ss vs).iterations = r.iterations := by
  refine ⟨?_, ?_, rfl, rfl⟩
  · intro s
    cases ss with
    | none => simp [Result.filter]
    | some l => simp [Result.filter, get_filterDict]
  · intro s
    cases vs with
    | none => simp [Result.filter]
    | some l => simp [Result.filter, get_filterDict]

/-- **C44.** The keys of a filtered result are the requested known ones, each
once, in the order in which they were requested. -/
theorem C44_keys (r : Result S V X α) (ss : List S) (vs : List V) :
    (r.filter (some ss) (some vs)).trust.keys =
      (firsts ss).filter (fun s => (r.trust.get? s).isSome) ∧
    (r.filter (some ss) (some vs)).belief.keys =
      (firsts vs).filter (fun v => (r.belief.get? v).isSome) :=
  ⟨keys_filterDict _ _, keys_filterDict _ _⟩

theorem filterDict_filterDict {κ ν : Type} [DecidableEq κ] (d : Dict κ ν) (a b : List κ) :
    filterDict (filterDict d a) b = filterDict d (b.filter (· ∈ a)) := by
  rw [filterDict_eq (filterDict d a), filterDict_eq d (b.filter (· ∈ a))]
  have : firsts (b.filter (· ∈ a)) = (firsts b).filter (· ∈ a) := by
    induction b using List.reverseRecOn with
    | nil => rfl
    | append_singleton L x ih =>
      rw [List.filter_append, firsts_append]
      by_cases hx : x ∈ a
      · rw [List.filter_cons, if_pos (by simpa using hx), List.filter_nil, firsts_append, ih]
        by_cases hL : x ∈ L
        · simp [hL, hx]
        · simp [hL, hx]
      · rw [List.filter_cons, if_neg (by simpa using hx), List.filter_nil, List.append_nil, ih]
        by_cases hL : x ∈ L
        · simp [hL]
        · simp [hL, hx]
  rw [this, List.filterMap_filter]
  refine List.filterMap_congr ?_
  intro k _
  rw [get_filterDict]
  by_cases h : k ∈ a <;> simp [h]

/-- **C44.** Filtering twice is filtering once by the labels requested both times;
in particular filtering is idempotent. -/
theorem C44_compose (r : Result S V X α) (a b : List S) (c d : List V) :
    (r.filter (some a) (some c)).filter (some b) (some d) =
      r.filter (some (b.filter (· ∈ a))) (some (d.filter (· ∈ c))) := by
  simp only [Result.filter, filterDict_filterDict]

/-- **C44.** Idempotence, for all four combinations of filters. -/
theorem C44_idempotent (r : Result S V X α) (ss : Option (List S)) (vs : Option (List V)) :
    (r.filter ss vs).filter ss vs = r.filter ss vs := by
  have h : ∀ {κ : Type} [DecidableEq κ] (a : List κ), a.filter (· ∈ a) = a := by
    intro κ _ a
    exact List.filter_eq_self.2 (by simp)
  cases ss <;> cases vs <;> simp only [Result.filter, filterDict_filterDict, h]

example : (⟨[(1, 10), (2, 20), (3, 30)], [], 0, none⟩ : Result Nat Nat Nat Nat).trust.keys = [1, 2, 3] ∧
    (filterDict [(1, 10), (2, 20), (3, 30)] [9, 3, 1, 3] : Dict Nat Nat) = [(3, 30), (1, 10)] := by
  decide
end filter

/-! ### C46 -/

/-- **C46.** Mean and population standard deviation of finite scores, without
rounding. -/
theorem C46_stats {κ : Type} (L : List (κ × ℝ)) (hne : L ≠ []) :
    let xs := L.map Prod.snd
    let mean := xs.sum / L.length
    let sd := Real.sqrt ((xs.map fun x => (x - mean) ^ 2).sum / L.length)
    getStats (L.map fun p => (p.1, Ex.fin p.2)) = (Ex.fin mean, Ex.fin sd) ∧
    (∃ x ∈ xs, x ≤ mean) ∧ (∃ x ∈ xs, mean ≤ x) ∧
    (∀ lo hi, (∀ x ∈ xs, lo ≤ x ∧ x ≤ hi) → lo ≤ mean ∧ mean ≤ hi) ∧
    0 ≤ sd ∧ (sd = 0 ↔ ∀ x ∈ xs, ∀ y ∈ xs, x = y) := by
  intro xs mean sd
  have hlen : 0 < L.length := List.length_pos_iff.2 hne
  have hn : (0 : ℝ) < (L.length : ℝ) := by exact_mod_cast hlen
  have hxl : xs.length = L.length := by simp [xs]
  have hbd : ∀ lo hi, (∀ x ∈ xs, lo ≤ x ∧ x ≤ hi) → lo ≤ mean ∧ mean ≤ hi := by
    intro lo hi h
    have h1 := List.card_nsmul_le_sum xs lo fun x hx => (h x hx).1
    have h2 := List.sum_le_card_nsmul xs hi fun x hx => (h x hx).2
    rw [nsmul_eq_mul, hxl] at h1 h2
    exact ⟨by rw [le_div_iff₀ hn]; linarith, by rw [div_le_iff₀ hn]; linarith⟩
  have hxne : xs ≠ [] := by simpa [xs] using hne
  have hsq : 0 ≤ (xs.map fun x => (x - mean) ^ 2).sum := by
    refine List.sum_nonneg ?_
    intro y hy
    obtain ⟨x, -, rfl⟩ := List.mem_map.1 hy
    positivity
  have hmean : mean * L.length = xs.sum := by
    show xs.sum / _ * _ = _
    field_simp
  refine ⟨?_, ?_, ?_, hbd, Real.sqrt_nonneg _, ?_⟩
  · have hv : Dict.values (L.map fun p => (p.1, Ex.fin p.2)) = xs.map Ex.fin := by
      simp [Dict.values, xs]
    simp only [getStats, hv, Ex.sum_eq, List.length_map, hxl, Ex.ofNat_eq]
    rw [Ex.div_eq _ hn.ne']
    show (Ex.fin mean, _) = _
    congr 1
    have e : List.map (fun x => (x -. Ex.fin mean) *. (x -. Ex.fin mean)) (xs.map Ex.fin) =
        (xs.map fun x => (x - mean) ^ 2).map Ex.fin := by
      generalize xs = ys
      rw [List.map_map, List.map_map]
      refine List.map_congr_left fun x _ => ?_
      simp [sq]
    rw [e, Ex.sum_eq, Ex.div_eq _ hn.ne', Ex.sqrt_eq (by positivity)]
  · by_contra h
    push Not at h
    obtain ⟨m, hm, hmin⟩ := xs.toFinset.exists_min_image id ⟨xs.head hxne, by simp⟩
    have := (hbd m (xs.toFinset.sup' ⟨m, hm⟩ id) fun x hx =>
      ⟨hmin x (by simpa using hx), Finset.le_sup' id (by simpa using hx)⟩).1
    exact absurd (h m (by simpa using hm)) (not_lt.2 this)
  · by_contra h
    push Not at h
    obtain ⟨m, hm, hmax⟩ := xs.toFinset.exists_max_image id ⟨xs.head hxne, by simp⟩
    have := (hbd (xs.toFinset.inf' ⟨m, hm⟩ id) m fun x hx =>
      ⟨Finset.inf'_le id (by simpa using hx), hmax x (by simpa using hx)⟩).2
    exact absurd (h m (by simpa using hm)) (not_lt.2 this)
  · have hall : sd = 0 ↔ ∀ x ∈ xs, x = mean := by
      show Real.sqrt _ = 0 ↔ _
      rw [Real.sqrt_eq_zero (by positivity), div_eq_zero_iff, or_iff_left hn.ne']
      have aux : ∀ ys : List ℝ, (ys.map fun x => (x - mean) ^ 2).sum = 0 ↔ ∀ x ∈ ys, x = mean := by
        intro ys
        induction ys with
        | nil => simp
        | cons y ys ih =>
          have h0 : 0 ≤ (ys.map fun x => (x - mean) ^ 2).sum := by
            refine List.sum_nonneg ?_
            intro y hy
            obtain ⟨x, -, rfl⟩ := List.mem_map.1 hy
            positivity
          rw [List.map_cons, List.sum_cons, add_eq_zero_iff_of_nonneg (by positivity) h0, ih]
          simp [sub_eq_zero]
      exact aux xs
    rw [hall]
    constructor
    · intro h x hx y hy
      rw [h x hx, h y hy]
    · intro h x hx
      have := hbd x x fun y hy => by rw [h y hy x hx]; exact ⟨le_refl _, le_refl _⟩
      exact le_antisymm this.1 this.2

/-- **C46.** An empty dictionary gives NaN for both (with a warning), not an
exception. -/
theorem C46_empty {κ : Type} : getStats ([] : Dict κ Ex) = (Ex.nan, Ex.nan) := by
  have h0 : Arith.sum ([] : List Ex) = Ex.fin 0 := by simpa using Ex.sum_eq []
  simp only [getStats, Dict.values, List.map_nil, List.length_nil, h0, Ex.ofNat_eq, Nat.cast_zero,
    Ex.zero_div_zero]
  rfl

/-- **C46.** Trust statistics of a result: mean and population standard deviation of
the trust scores of all its sources. -/
theorem C46_trust_stats (r : Result S V X Ex) (L : List (S × ℝ)) (hne : L ≠ [])
    (h : r.trust = L.map fun p => (p.1, Ex.fin p.2)) :
    let xs := L.map Prod.snd
    let mean := xs.sum / L.length
    r.trustStats =
      (Ex.fin mean, Ex.fin (Real.sqrt ((xs.map fun x => (x - mean) ^ 2).sum / L.length))) := by
  have := (C46_stats L hne).1
  rw [← h] at this
  exact this

/-- **C46.** Belief statistics of a result, per variable: mean and population standard
deviation of the belief scores of all its values. -/
theorem C46_belief_stats_values (r : Result S V X Ex) (h : r.belief.keys.Nodup)
    (v : V) (d : Dict X Ex) (hv : (v, d) ∈ r.belief) (L : List (X × ℝ)) (hne : L ≠ [])
    (hd : d = L.map fun p => (p.1, Ex.fin p.2)) :
    let xs := L.map Prod.snd
    let mean := xs.sum / L.length
    r.beliefStats.get? v = some
      (Ex.fin mean, Ex.fin (Real.sqrt ((xs.map fun x => (x - mean) ^ 2).sum / L.length))) := by
  intro xs mean
  have e : r.beliefStats = r.belief.map fun p => (p.1, getStats p.2) := by
    refine ofPairs_nodup ?_
    rw [List.map_map]
    exact h
  have h1 := (C46_stats L hne).1
  rw [← hd] at h1
  rw [← h1, e]
  refine (lookup_eq_some_iff ?_).2 (List.mem_map.2 ⟨_, hv, rfl⟩)
  rw [List.map_map]
  exact h

/-- **C46.** Belief statistics: exactly the variables of the result, in the same
order, each with the statistics of its own scores. -/
theorem C46_belief_stats {α : Type} [Arith α] (r : Result S V X α) (h : r.belief.keys.Nodup) :
    r.beliefStats = r.belief.map fun p => (p.1, getStats p.2) := by
  refine ofPairs_nodup ?_
  rw [List.map_map]
  exact h

example : ∃ L : List (Nat × ℝ), L ≠ [] ∧ ∃ x ∈ L, ∃ y ∈ L, x.2 ≠ y.2 :=
  ⟨[(1, 0), (2, 1)], by simp, (1, 0), by simp, (2, 1), by simp, by norm_num⟩

example : (⟨[(1, Ex.fin 0), (2, Ex.fin 1)], [], Ex.fin 0, none⟩ : Result Nat Nat Nat Ex).trust =
    [((1 : Nat), (0 : ℝ)), (2, 1)].map fun p => (p.1, Ex.fin p.2) := rfl

/-! ### C47 -/

theorem minus_eq {α : Type} [Arith α] (a b : Option α) :
    minus a b = a.bind fun x => b.map fun y => y -. x := by
  cases a <;> cases b <;> rfl

/-- **C47.** The difference of two results exists and has exactly the common
sources and the common (variable, value) pairs with the second minus the first
score, no variable with an empty dictionary, the difference of the times, and of
the iterations iff both have them — for every arithmetic and whatever order Python
iterates over sets in. -/
theorem C47_diff {α : Type} [Arith α] (ordS : List S → List S) (ordV : List V → List V)
    (ordX : List X → List X) (hS : ∀ L, (ordS L).Perm L) (hV : ∀ L, (ordV L).Perm L)
    (hX : ∀ L, (ordX L).Perm L) (r1 r2 : Result S V X α) (h1 : WellKeyed r1) :
    ∃ d, resultDiff ordS ordV ordX r1 r2 = .ok d ∧
      (∀ s, d.trust.get? s = minus (r1.trust.get? s) (r2.trust.get? s)) ∧
      (∀ v x, beliefAt d.belief v x = minus (beliefAt r1.belief v x) (beliefAt r2.belief v x)) ∧
      (∀ v b, d.belief.get? v = some b → b ≠ []) ∧
      d.time = r2.time -. r1.time ∧
      d.iterations = (match r1.iterations, r2.iterations with
        | some i1, some i2 => some ((i2 : Int) - (i1 : Int))
        | _, _ => none) ∧
      d.trust.keys.Nodup ∧ d.belief.keys.Nodup := by
  obtain ⟨t, ht, htn, htk⟩ := diffDict_eq hS (d2 := r2.trust) h1.1
  have hin : ∀ v, ∃ D : Dict X α, ∀ b1, r1.belief.get? v = some b1 →
      ∀ b2, r2.belief.get? v = some b2 →
      diffDict ordX b1 b2 = .ok D ∧ ∀ k, D.get? k =
        (b1.get? k).bind fun x => (b2.get? k).map fun y => y -. x := by
    intro v
    cases e1 : r1.belief.get? v with
    | none => exact ⟨[], by simp⟩
    | some b1 =>
      cases e2 : r2.belief.get? v with
      | none => exact ⟨[], by simp⟩
      | some b2 =>
        obtain ⟨D, hD, -, hk⟩ := diffDict_eq hX (d2 := b2) (h1.2.2 v b1 e1)
        exact ⟨D, by rintro _ ⟨⟩ _ ⟨⟩; exact ⟨hD, hk⟩⟩
  choose D hD using hin
  set g : V → Option (Dict X α) := fun v => if (D v).isEmpty then none else some (D v) with hg
  have hb : (common ordV r1.belief.keys r2.belief.keys).foldlM
      (fun (acc : Dict V (Dict X α)) v => do
        let b1 ← r1.belief.get v
        let b2 ← r2.belief.get v
        let diffs ← diffDict ordX b1 b2
        return if diffs.isEmpty then acc else acc.set v diffs) [] =
      .ok ((common ordV r1.belief.keys r2.belief.keys).filterMap
        fun k => (g k).map fun v => (k, v)) := by
    refine foldlM_set ?_ (nodup_common hV h1.2.1)
    intro v hv acc
    rw [mem_common hV] at hv
    obtain ⟨b1, e1⟩ := mem_keys_iff.1 hv.1
    obtain ⟨b2, e2⟩ := mem_keys_iff.1 hv.2
    simp only [Dict.get, e1, e2, Bind.bind, Except.bind, (hD v b1 e1 b2 e2).1, hg]
    cases hDe : (D v).isEmpty <;> simp [pure, Except.pure]
  refine ⟨_, by
    unfold resultDiff
    rw [ht]
    simp only [Bind.bind, Except.bind] at hb ⊢
    rw [hb]
    rfl, ?_, ?_, ?_, rfl, rfl, htn, ?_⟩
  · intro s
    rw [minus_eq]; exact htk s
  · intro v x
    simp only [beliefAt, Dict.get?]
    rw [lookup_filterMap_key]
    by_cases hv : v ∈ common ordV r1.belief.keys r2.belief.keys
    · rw [if_pos hv]
      rw [mem_common hV] at hv
      obtain ⟨b1, e1⟩ := mem_keys_iff.1 hv.1
      obtain ⟨b2, e2⟩ := mem_keys_iff.1 hv.2
      have hk := (hD v b1 e1 b2 e2).2 x
      rw [← minus_eq] at hk
      have e1' : List.lookup v r1.belief = some b1 := e1
      have e2' : List.lookup v r2.belief = some b2 := e2
      rw [e1', e2']
      simp only [Option.bind_some, hg]
      show _ = minus (b1.get? x) (b2.get? x)
      rw [← hk]
      cases hDe : (D v).isEmpty with
      | true => 
        rw [List.isEmpty_iff] at hDe
        simp [hDe, Dict.get?]
      | false => simp [Dict.get?]
    · rw [if_neg hv]
      rw [mem_common hV, mem_keys_iff, mem_keys_iff] at hv
      cases e1 : List.lookup v r1.belief with
      | none => rfl
      | some b1 =>
        cases e2 : List.lookup v r2.belief with
        | none => simp [minus_eq]
        | some b2 => exact absurd ⟨⟨b1, e1⟩, ⟨b2, e2⟩⟩ hv
  · intro v b hvb
    simp only [Dict.get?] at hvb
    rw [lookup_filterMap_key] at hvb
    split at hvb
    · simp only [hg] at hvb
      split at hvb
      · cases hvb
      · cases hvb
        rename_i h
        intro hb
        rw [hb] at h
        simp at h
    · cases hvb
  · unfold Dict.keys
    rw [keys_filterMap]
    exact (nodup_common hV h1.2.1).filter _

theorem minus_self (R : Rounding) (y : ℝ) :
    minus (some (FP.fin y : FP R)) (some (FP.fin y)) = some (FP.fin 0) := by
  show some (FNum.add R (FNum.fin y) (FNum.neg (FNum.fin y))) = _
  simp only [FNum.neg, FNum.add, add_neg_cancel, R.zero]
  rfl

theorem minus_swap (R : Rounding) (a b : Option (FP R)) :
    minus b a = (minus a b).map Arith.neg := by
  cases a with
  | none => cases b <;> rfl
  | some a =>
    cases b with
    | none => rfl
    | some b =>
      show some (FNum.add R a (FNum.neg b)) = some (FNum.neg (FNum.add R b (FNum.neg a)))
      congr 1
      cases a <;> cases b <;> first | rfl | skip
      rename_i x y
      show R.rnd (x + -y) = (R.rnd (y + -x)).neg
      rw [← R.odd]
      congr 1
      ring

section consequences
variable {ordS : List S → List S} {ordV : List V → List V} {ordX : List X → List X}
  (hS : ∀ L, (ordS L).Perm L) (hV : ∀ L, (ordV L).Perm L) (hX : ∀ L, (ordX L).Perm L)
include hS hV hX

/-- **C47.** With finite scores the difference of a result with itself is zero
everywhere, whatever the rounding. -/
theorem C47_self (R : Rounding) (r : Result S V X (FP R)) (h : WellKeyed r)
    (ht : ∀ s x, r.trust.get? s = some x → ∃ y, x = FP.fin y)
    (hb : ∀ v x b, beliefAt r.belief v x = some b → ∃ y, b = FP.fin y)
    (d : Diff S V X (FP R)) (hd : resultDiff ordS ordV ordX r r = .ok d) :
    (∀ s, d.trust.get? s = (r.trust.get? s).map fun _ => FP.fin 0) ∧
    (∀ v x, beliefAt d.belief v x = (beliefAt r.belief v x).map fun _ => FP.fin 0) ∧
    (∀ i, d.iterations = some i → i = 0) := by
  obtain ⟨d', e, h1, h2, -, -, h3, -⟩ := C47_diff ordS ordV ordX hS hV hX r r h
  rw [hd] at e
  obtain rfl := Except.ok.inj e
  refine ⟨?_, ?_, ?_⟩
  · intro s
    rw [h1]
    cases e : r.trust.get? s with
    | none => rfl
    | some x => obtain ⟨y, rfl⟩ := ht s x e; exact minus_self R y
  · intro v x
    rw [h2]
    cases e : beliefAt r.belief v x with
    | none => rfl
    | some b => obtain ⟨y, rfl⟩ := hb v x b e; exact minus_self R y
  · intro i hi
    rw [h3] at hi
    cases e : r.iterations with
    | none => rw [e] at hi; cases hi
    | some n => rw [e] at hi; simp at hi; exact hi.symm

/-- **C47.** Swapping the results negates every difference, whatever the rounding
(also for infinite scores and NaN). -/
theorem C47_swap (R : Rounding) (r1 r2 : Result S V X (FP R)) (h1 : WellKeyed r1)
    (h2 : WellKeyed r2) (d d' : Diff S V X (FP R))
    (hd : resultDiff ordS ordV ordX r1 r2 = .ok d)
    (hd' : resultDiff ordS ordV ordX r2 r1 = .ok d') :
    (∀ s, d'.trust.get? s = (d.trust.get? s).map Arith.neg) ∧
    (∀ v x, beliefAt d'.belief v x = (beliefAt d.belief v x).map Arith.neg) ∧
    d'.iterations = d.iterations.map (- ·) := by
  obtain ⟨_, e, a1, a2, -, -, a3, -⟩ := C47_diff ordS ordV ordX hS hV hX r1 r2 h1
  rw [hd] at e
  obtain rfl := Except.ok.inj e
  obtain ⟨_, e, b1, b2, -, -, b3, -⟩ := C47_diff ordS ordV ordX hS hV hX r2 r1 h2
  rw [hd'] at e
  obtain rfl := Except.ok.inj e
  refine ⟨fun s => ?_, fun v x => ?_, ?_⟩
  · rw [a1, b1]; exact minus_swap R _ _
  · rw [a2, b2]; exact minus_swap R _ _
  · rw [a3, b3]
    cases r1.iterations <;> cases r2.iterations <;> simp

/-- **C47.** Differences of finite scores add up along a chain of results (exact
arithmetic). -/
theorem C47_chain (r1 r2 r3 : Result S V X Ex) (h1 : WellKeyed r1) (h2 : WellKeyed r2)
    (d12 d23 d13 : Diff S V X Ex)
    (e12 : resultDiff ordS ordV ordX r1 r2 = .ok d12)
    (e23 : resultDiff ordS ordV ordX r2 r3 = .ok d23)
    (e13 : resultDiff ordS ordV ordX r1 r3 = .ok d13)
    (s : S) (x y z : ℝ) (hx : r1.trust.get? s = some (Ex.fin x))
    (hy : r2.trust.get? s = some (Ex.fin y)) (hz : r3.trust.get? s = some (Ex.fin z))
    (v : V) (k : X) (a b c : ℝ) (ha : beliefAt r1.belief v k = some (Ex.fin a))
    (hb : beliefAt r2.belief v k = some (Ex.fin b)) (hc : beliefAt r3.belief v k = some (Ex.fin c)) :
    (∃ p q, d12.trust.get? s = some p ∧ d23.trust.get? s = some q ∧
      d13.trust.get? s = some (p +. q)) ∧
    (∃ p q, beliefAt d12.belief v k = some p ∧ beliefAt d23.belief v k = some q ∧
      beliefAt d13.belief v k = some (p +. q)) := by
  obtain ⟨_, e, a1, a2, -⟩ := C47_diff ordS ordV ordX hS hV hX r1 r2 h1
  rw [e12] at e
  obtain rfl := Except.ok.inj e
  obtain ⟨_, e, b1, b2, -⟩ := C47_diff ordS ordV ordX hS hV hX r2 r3 h2
  rw [e23] at e
  obtain rfl := Except.ok.inj e
  obtain ⟨_, e, c1, c2, -⟩ := C47_diff ordS ordV ordX hS hV hX r1 r3 h1
  rw [e13] at e
  obtain rfl := Except.ok.inj e
  have key : ∀ x y z : ℝ, some (Ex.fin z -. Ex.fin x) =
      some ((Ex.fin y -. Ex.fin x) +. (Ex.fin z -. Ex.fin y)) := by
    intro x y z
    rw [Ex.sub_eq, Ex.sub_eq, Ex.sub_eq, Ex.add_eq]
    congr 2
    ring
  refine ⟨⟨_, _, by rw [a1, hx, hy]; rfl, by rw [b1, hy, hz]; rfl, ?_⟩,
    ⟨_, _, by rw [a2, ha, hb]; rfl, by rw [b2, hb, hc]; rfl, ?_⟩⟩
  · rw [c1, hx, hz]; exact key x y z
  · rw [c2, ha, hc]; exact key a b c
end consequences

/-- Non-vacuity: results with partly common keys. -/
example : WellKeyed (⟨[(1, Ex.fin 1), (2, Ex.fin 0)], [(7, [(0, Ex.fin 1), (5, Ex.fin 0)])],
    Ex.fin 0, some 3⟩ : Result Nat Nat Nat Ex) := by
  refine ⟨by simp [Dict.keys], by simp [Dict.keys], ?_⟩
  intro v d h
  simp only [Dict.get?, List.lookup] at h
  split at h
  · cases h; simp [Dict.keys]
  · cases h

end TD
