import Verif.Spec.Trials
import Verif.Props.Client
import Verif.Props.AccuracyRuns
import Verif.Props.Escape
import Verif.Props.Synthetic
import Verif.Props.Timing
import Verif.Props.Matrix
import Verif.Lemmas.Toy
/-!
# C92, C93: the experiments of `examples/`
-/

namespace TD
open Spec

variable {α L : Type} [Arith α] [DecidableEq L]

/-! ### One repetition -/

theorem trialAlgs_ok {env : TrialEnv α} {s : SupervisedMatrix Nat α} {algs : List (Text × AnyAlg α)}
    {res res' : Dict Text (List α)} {c c' : Nat} (hn : (algs.map Prod.fst).Nodup)
    (h : trialAlgs env s algs res c = .ok (res', c')) :
    c' = c + algs.length ∧ (∀ k ∉ algs.map Prod.fst, res'.get? k = res.get? k) ∧
    (∀ t p, algs[t]? = some p → ∃ a, AccuracyAt env p.2 s (c + t) a ∧
      res'.get? p.1 = some ((res.get? p.1).getD [] ++ [a])) ∧
    ((∀ p ∈ algs, p.1 ∈ res.keys) → res'.keys = res.keys) ∧
    ((∀ p ∈ algs, p.1 ∉ res.keys) → res'.keys = res.keys ++ algs.map Prod.fst) := by
  induction algs generalizing res c with
  | nil =>
    cases h
    refine ⟨rfl, fun _ _ => rfl, fun t p e => by simp at e, fun _ => rfl, fun _ => by simp⟩
  | cons q rest ih =>
    obtain ⟨label, a⟩ := q
    simp only [trialAlgs] at h
    split at h
    · cases h
    rename_i r hr
    split at h
    · cases h
    rename_i acc hacc
    simp only [List.map_cons, List.nodup_cons] at hn
    obtain ⟨e, hother, hent, hk1, hk2⟩ := ih hn.2 h
    have hne : ∀ p ∈ rest, p.1 ≠ label := by
      rintro p hp rfl
      exact hn.1 (List.mem_map_of_mem hp)
    refine ⟨by rw [e, List.length_cons]; omega, ?_, ?_, ?_, ?_⟩
    · intro k hk
      simp only [List.map_cons, List.mem_cons, not_or] at hk
      rw [hother k hk.2, get?_set, if_neg hk.1]
    · intro t p ht
      cases t with
      | zero =>
        cases ht
        refine ⟨acc, ⟨r, hr, hacc⟩, ?_⟩
        rw [hother label hn.1, get?_set, if_pos rfl]
      | succ t =>
        obtain ⟨x, hx, hg⟩ := hent t p (by simpa using ht)
        refine ⟨x, by rw [show c + (t + 1) = c + 1 + t by omega]; exact hx, ?_⟩
        have hp : p ∈ rest := List.mem_of_getElem? (by simpa using ht)
        rw [hg, get?_set, if_neg (hne p hp)]
    · intro hin
      have hl : label ∈ res.keys := hin (label, a) (by simp)
      rw [hk1, keys_set, if_pos hl]
      intro p hp
      rw [keys_set, if_pos hl]
      exact hin p (by simp [hp])
    · intro hout
      have hl : label ∉ res.keys := hout (label, a) (by simp)
      rw [hk2, keys_set, if_neg hl]
      · simp
      · intro p hp
        rw [keys_set, if_neg hl]
        simp only [List.mem_append, List.mem_singleton, not_or]
        exact ⟨hout p (by simp [hp]), hne p hp⟩

theorem trialData_ok {g : Rng α} {q : SynthChoice α} {k k' : Nat} {s : SupervisedMatrix Nat α}
    (h : trialData g q k = .ok (s, k')) : MadeWith g q k s k' := by
  unfold trialData at h
  split at h
  · cases h
  rename_i t km ht
  refine ⟨t, km, ?_, h⟩
  cases hq : q.trust with
  | array v =>
    rw [hq] at ht
    cases ht
    exact .array _ _
  | draw f =>
    rw [hq] at ht
    simp only [callTrust] at ht
    split at ht
    · cases ht
    · exact .draw _ _ _ _ ht

/-! ### The repetitions for one label -/

theorem trialReps_ok {env : TrialEnv α} {algs : List (Text × AnyAlg α)} (hn : (algs.map Prod.fst).Nodup)
    {q : SynthChoice α} {n : Nat} {res res' : Dict Text (List α)} {k c k' c' : Nat}
    (h : trialReps env algs q n res (k, c) = .ok (res', k', c')) :
    c' = c + n * algs.length ∧ (n = 0 → res' = res) ∧
    ((∀ p ∈ algs, p.1 ∈ res.keys) → res'.keys = res.keys) ∧
    (0 < n → (∀ p ∈ algs, p.1 ∉ res.keys) → res'.keys = res.keys ++ algs.map Prod.fst) ∧
    ∃ ks : Nat → Nat, ks 0 = k ∧ ks n = k' ∧
      (∀ p ∈ algs, ∃ accs, (res'.get? p.1).getD [] = (res.get? p.1).getD [] ++ accs ∧ accs.length = n ∧
        (0 < n → (res'.get? p.1).isSome)) ∧
      ∀ j < n, ∃ s, MadeWith env.rng q (ks j) s (ks (j + 1)) ∧
        ∀ t p, algs[t]? = some p → ∃ a, ((res'.get? p.1).getD [])[((res.get? p.1).getD []).length + j]? = some a ∧
          AccuracyAt env p.2 s (c + j * algs.length + t) a := by
  induction n generalizing res k c with
  | zero =>
    cases h
    exact ⟨by simp, fun _ => rfl, fun _ => rfl, fun h => absurd h (by omega), fun _ => k', rfl, rfl,
      fun p _ => ⟨[], by simp, rfl, by omega⟩, fun j hj => by omega⟩
  | succ n ih =>
    simp only [trialReps] at h
    split at h
    · cases h
    rename_i s k1 hs
    split at h
    · cases h
    rename_i res1 c1 ha
    obtain ⟨e1, hother, hent, hk1, hk2⟩ := trialAlgs_ok hn ha
    obtain ⟨e2, hz, hr1, hr2, ks, ks0, ksn, hall, hj⟩ := ih h
    have hin1 : (∀ p ∈ algs, p.1 ∉ res.keys) → ∀ p ∈ algs, p.1 ∈ res1.keys := by
      intro hout p hp
      rw [hk2 hout]
      exact List.mem_append_right _ (List.mem_map_of_mem hp)
    refine ⟨by rw [e2, e1, Nat.add_mul]; omega, by omega, ?_, ?_, fun j => match j with | 0 => k | j + 1 => ks j, rfl, ksn, ?_, ?_⟩
    · intro hin
      rw [hr1, hk1 hin]
      rw [hk1 hin]
      exact hin
    · intro _ hout
      rw [hr1 (hin1 hout), hk2 hout]
    · intro p hp
      obtain ⟨t, ht⟩ := List.mem_iff_getElem?.1 hp
      obtain ⟨a, -, hg⟩ := hent t p ht
      obtain ⟨accs, e, hlen, hsome⟩ := hall p hp
      refine ⟨a :: accs, ?_, by simp [hlen], fun _ => ?_⟩
      · rw [e, hg]; simp
      · rcases Nat.eq_zero_or_pos n with h0 | h0
        · rw [hz h0, hg]; rfl
        · exact hsome h0
    · intro j hjn
      cases j with
      | zero =>
        refine ⟨s, ?_, fun t p ht => ?_⟩
        · show MadeWith env.rng q k s (ks 0)
          rw [ks0]
          exact trialData_ok hs
        · obtain ⟨a, haa, hg⟩ := hent t p ht
          obtain ⟨accs, e, -, -⟩ := hall p (List.mem_of_getElem? ht)
          refine ⟨a, ?_, by simpa using haa⟩
          rw [e, hg]
          simp
      | succ j =>
        obtain ⟨s', hs', hp'⟩ := hj j (by omega)
        refine ⟨s', hs', fun t p ht => ?_⟩
        obtain ⟨a, hg', ha'⟩ := hp' t p ht
        obtain ⟨b, -, hg⟩ := hent t p ht
        refine ⟨a, ?_, ?_⟩
        · rw [← hg', hg]
          congr 1
          simp
          omega
        · have : c + (j + 1) * algs.length + t = c1 + j * algs.length + t := by
            rw [e1, Nat.add_mul]; omega
          rw [this]
          exact ha'

theorem labelTable_of {env : TrialEnv α} {algs : List (Text × AnyAlg α)} (hn : (algs.map Prod.fst).Nodup)
    {q : SynthChoice α} {n : Nat} (hpos : 0 < n) {res : Dict Text (List α)} {k c k' c' : Nat}
    (h : trialReps env algs q n [] (k, c) = .ok (res, k', c')) :
    c' = c + n * algs.length ∧ ∃ ks : Nat → Nat, ks 0 = k ∧ ks n = k' ∧ LabelTable env algs n q ks c res := by
  obtain ⟨e, -, -, hk, ks, ks0, ksn, hall, hj⟩ := trialReps_ok hn h
  refine ⟨e, ks, ks0, ksn, ?_, ?_, ?_⟩
  · simpa [Dict.keys] using hk hpos (fun p _ => by simp [Dict.keys])
  · intro p hp
    obtain ⟨accs, e1, e2, hs⟩ := hall p hp
    obtain ⟨x, hx⟩ := Option.isSome_iff_exists.1 (hs hpos)
    rw [hx] at e1
    simp [Dict.get?] at e1
    exact ⟨x, hx, by rw [e1]; exact e2⟩
  · intro j hjn
    obtain ⟨s, hs, hp⟩ := hj j hjn
    refine ⟨s, hs, fun t p ht => ?_⟩
    obtain ⟨a, hg, ha⟩ := hp t p ht
    obtain ⟨accs, e1, e2, hsome⟩ := hall p (List.mem_of_getElem? ht)
    obtain ⟨x, hx⟩ := Option.isSome_iff_exists.1 (hsome hpos)
    refine ⟨x, a, hx, ?_, ha⟩
    rw [hx] at hg
    simpa [Dict.get?] using hg

/-! ### The parameters -/

theorem Supply.next_some {β : Type} {p p' : Supply β} {b : β} (h : p.next = some (b, p')) :
    Nth p 0 b ∧ ∀ i x, Nth p' i x ↔ Nth p (i + 1) x := by
  cases p with
  | rest l =>
    cases l with
    | nil => cases h
    | cons a l => cases h; exact ⟨rfl, fun i x => by simp [Nth]⟩
  | always a => cases h; exact ⟨rfl, fun i x => by simp [Nth]⟩

theorem Supply.next_none {β : Type} {p : Supply β} : p.next = none ↔ ¬ ∃ b, Nth p 0 b := by
  cases p with
  | rest l => cases l <;> simp [Supply.next, Nth]
  | always a => simp [Supply.next, Nth]

theorem SynthParams.next_some {p p' : SynthParams α} {q : SynthChoice α} (h : p.next = some (q, p')) :
    NthChoice p 0 q ∧ ∀ i x, NthChoice p' i x ↔ NthChoice p (i + 1) x := by
  simp only [SynthParams.next, Option.bind_eq_bind, Option.bind_eq_some_iff, Prod.exists] at h
  obtain ⟨t, t', h1, n, n', h2, c, c', h3, d, d', h4, h5⟩ := h
  cases h5
  obtain ⟨a1, b1⟩ := Supply.next_some h1
  obtain ⟨a2, b2⟩ := Supply.next_some h2
  obtain ⟨a3, b3⟩ := Supply.next_some h3
  obtain ⟨a4, b4⟩ := Supply.next_some h4
  refine ⟨⟨a1, a2, a3, a4⟩, fun i x => ?_⟩
  simp only [NthChoice, b1, b2, b3, b4]

theorem SynthParams.next_none {p : SynthParams α} (h : ¬ ∃ q, NthChoice p 0 q) : p.next = none := by
  cases hp : p.next with
  | none => rfl
  | some x => exact absurd ⟨x.1, (SynthParams.next_some (q := x.1) (p' := x.2) hp).1⟩ h

/-! ### The experiment -/

theorem experiment_ok {env : TrialEnv α} {algs : List (Text × AnyAlg α)} (hn : (algs.map Prod.fst).Nodup)
    {reps : Nat} (hpos : 0 < reps) {labels : List L} (hl : labels.Nodup) {out out' : Dict L (Dict Text (List α))}
    (hout : ∀ x ∈ labels, x ∉ out.keys) {p p' : SynthParams α} {k c k' c' : Nat}
    (h : experimentRun env algs reps labels out p (k, c) = .ok (out', p', k', c')) :
    out'.keys = out.keys ++ labels ∧ (∀ x ∉ labels, out'.get? x = out.get? x) ∧
    (∀ i x, NthChoice p' i x ↔ NthChoice p (i + labels.length) x) ∧
    ∃ ks : Nat → Nat → Nat, ks 0 0 = k ∧ ks labels.length 0 = k' ∧ (∀ i < labels.length, ks i reps = ks (i + 1) 0) ∧
      ∀ i x, labels[i]? = some x → ∃ q res, NthChoice p i q ∧ out'.get? x = some res ∧
        LabelTable env algs reps q (ks i) (c + i * reps * algs.length) res := by
  induction labels generalizing out p k c with
  | nil =>
    cases h
    exact ⟨by simp, fun _ _ => rfl, fun _ _ => Iff.rfl, fun _ _ => k', rfl, rfl, by simp, by simp⟩
  | cons x rest ih =>
    simp only [experimentRun] at h
    split at h
    · cases h
    rename_i q p1 hp
    split at h
    · cases h
    rename_i res kc hr
    obtain ⟨k1, c1⟩ := kc
    obtain ⟨e1, ks0, a1, a2, htab⟩ := labelTable_of hn hpos hr
    obtain ⟨n1, n2⟩ := SynthParams.next_some hp
    simp only [List.nodup_cons] at hl
    have hx : x ∉ out.keys := hout x (by simp)
    have hk : (out.set x res).keys = out.keys ++ [x] := by rw [keys_set, if_neg hx]
    obtain ⟨b1, b2, b3, ks, b4, b5, b6, b7⟩ := ih hl.2 (out := out.set x res) (by
      intro y hy
      rw [hk]
      simp only [List.mem_append, List.mem_singleton, not_or]
      exact ⟨hout y (by simp [hy]), by rintro rfl; exact hl.1 hy⟩) h
    refine ⟨by rw [b1, hk]; simp, ?_, ?_, fun i => match i with | 0 => ks0 | i + 1 => ks i, a1, b5, ?_, ?_⟩
    · intro y hy
      simp only [List.mem_cons, not_or] at hy
      rw [b2 y hy.2, get?_set, if_neg hy.1]
    · intro i y
      rw [b3, n2]
      simp only [List.length_cons, Nat.add_assoc]
    · intro i hi
      cases i with
      | zero => show ks0 reps = ks 0 0; rw [a2, b4]
      | succ i => exact b6 i (by simpa using hi)
    · intro i y hy
      cases i with
      | zero =>
        cases hy
        refine ⟨q, res, n1, ?_, by simpa using htab⟩
        rw [b2 x hl.1, get?_set, if_pos rfl]
      | succ i =>
        obtain ⟨q', res', c1', c2', c3'⟩ := b7 i y (by simpa using hy)
        refine ⟨q', res', (n2 i q').1 c1', c2', ?_⟩
        have : c + (i + 1) * reps * algs.length = c1 + i * reps * algs.length := by
          rw [e1, Nat.add_mul, Nat.add_mul, Nat.one_mul]; omega
        rw [this]
        exact c3'

/-- **C92.** A successful run of an experiment has results for exactly its labels; those of the `i`-th
label were obtained with the `i`-th values of the parameters: for every algorithm `reps` accuracies, the
`j`-th of all algorithms on the same synthetic dataset.  No random number is used twice. -/
theorem C92_results (env : TrialEnv α) (algs : List (Text × AnyAlg α)) (hn : (algs.map Prod.fst).Nodup)
    (reps : Nat) (hpos : 0 < reps) (labels : List L) (hl : labels.Nodup) (p p' : SynthParams α) (k c k' c' : Nat)
    (out : Dict L (Dict Text (List α)))
    (h : experimentRun env algs reps labels [] p (k, c) = .ok (out, p', k', c')) :
    out.keys = labels ∧
    ∃ ks : Nat → Nat → Nat, ks 0 0 = k ∧ (∀ i < labels.length, ks i reps = ks (i + 1) 0) ∧
      ∀ i label, labels[i]? = some label → ∃ q res, NthChoice p i q ∧ out.get? label = some res ∧
        LabelTable env algs reps q (ks i) (c + i * reps * algs.length) res := by
  obtain ⟨a, -, -, ks, b, -, d, e⟩ := experiment_ok hn hpos hl (out := []) (fun _ _ => by simp [Dict.keys]) h
  exact ⟨by simpa [Dict.keys] using a, ks, b, d, e⟩

/-- **C92.** All the numbers are between 0 and 1, however arithmetic is rounded. -/
theorem C92_unit {R : Rounding} (env : TrialEnv (FP R)) (algs : List (Text × AnyAlg (FP R))) (hn : (algs.map Prod.fst).Nodup)
    (reps : Nat) (hpos : 0 < reps) (labels : List L) (hl : labels.Nodup) (p p' : SynthParams (FP R)) (k c k' c' : Nat)
    (out : Dict L (Dict Text (List (FP R))))
    (h : experimentRun env algs reps labels [] p (k, c) = .ok (out, p', k', c')) :
    ∀ label ∈ labels, ∀ q ∈ algs, ∃ res accs, out.get? label = some res ∧ res.get? q.1 = some accs ∧ accs.length = reps ∧
      ∀ a ∈ accs, a ≠ FP.nan ∧ 0 ≤ FP.val a ∧ FP.val a ≤ 1 := by
  obtain ⟨-, ks, -, -, hall⟩ := C92_results env algs hn reps hpos labels hl p p' k c k' c' out h
  intro label hlab q hq
  obtain ⟨i, hi⟩ := List.mem_iff_getElem?.1 hlab
  obtain ⟨ch, res, -, hres, htab⟩ := hall i label hi
  obtain ⟨accs, ha, hlen⟩ := htab.full q hq
  refine ⟨res, accs, hres, ha, hlen, fun a hmem => ?_⟩
  obtain ⟨j, hj⟩ := List.mem_iff_getElem?.1 hmem
  have hjlt : j < reps := by
    rw [← hlen]; exact (List.getElem?_eq_some_iff.1 hj).1
  obtain ⟨s, -, hent⟩ := htab.entries j hjlt
  obtain ⟨t, ht⟩ := List.mem_iff_getElem?.1 hq
  obtain ⟨accs', a', e1, e2, r, -, hacc⟩ := hent t q ht
  rw [ha] at e1
  cases e1
  rw [hj] at e2
  cases e2
  have hne : ∀ p ∈ s.values, ∀ d, r.belief.get? p.1 = some d → d ≠ [] := by
    rintro p hp d hd rfl
    rw [C14_empty_dictionary r s.values _ p hp hd] at hacc
    cases hacc
  by_cases hc : counted r s.values = []
  · rw [((C14_any r s.values hne (env.pick _)).1.2 hc)] at hacc
    cases hacc
  · obtain ⟨-, b, -, hb, -, hr⟩ := (C14_any r s.values hne (env.pick _)).2 hc
    rw [hb] at hacc
    cases hacc
    exact hr

/-- **C92.** An experiment with more labels than values of some parameter does not succeed; if there is
not even a value for its first label, it raises `RuntimeError`. -/
theorem C92_exhausted (env : TrialEnv α) (algs : List (Text × AnyAlg α)) (hn : (algs.map Prod.fst).Nodup)
    (reps : Nat) (hpos : 0 < reps) (labels : List L) (hl : labels.Nodup) (p : SynthParams α) (kc : Nat × Nat)
    (i : Nat) (hi : i < labels.length) (hp : ¬ ∃ q, NthChoice p i q) :
    (∀ x, experimentRun env algs reps labels [] p kc ≠ .ok x) ∧
    (i = 0 → experimentRun env algs reps labels [] p kc = .error .runtimeError) := by
  refine ⟨?_, ?_⟩
  · rintro ⟨out, p', k', c'⟩ h
    obtain ⟨-, ks, -, -, hall⟩ := C92_results env algs hn reps hpos labels hl p p' kc.1 kc.2 k' c' out h
    obtain ⟨q, -, hq, -⟩ := hall i labels[i] (List.getElem?_eq_getElem hi)
    exact hp ⟨q, hq⟩
  · rintro rfl
    cases labels with
    | nil => simp at hi
    | cons x rest => simp only [experimentRun, SynthParams.next_none hp]

/-- **C92.** Every object of a class draws its parameters from the same iterators.  So when an experiment
with as many labels as one of its parameters has values has run, another run of it, or of an object of the
same class that already existed, raises `RuntimeError`. -/
theorem C92_second_run (env : TrialEnv α) (algs : List (Text × AnyAlg α)) (hn : (algs.map Prod.fst).Nodup)
    (reps : Nat) (hpos : 0 < reps) (labels : List L) (hl : labels.Nodup) (hne : labels ≠ [])
    (p p' : SynthParams α) (hp : ¬ ∃ q, NthChoice p labels.length q)
    (kc kc' kc2 : Nat × Nat) (out : Dict L (Dict Text (List α)))
    (h : experimentRun env algs reps labels [] p kc = .ok (out, p', kc')) :
    experimentRun env algs reps labels [] p' kc2 = .error .runtimeError := by
  obtain ⟨-, -, hnext, -⟩ := experiment_ok hn hpos hl (out := []) (fun _ _ => by simp [Dict.keys]) (k := kc.1) (c := kc.2)
    (k' := kc'.1) (c' := kc'.2) h
  refine (C92_exhausted env algs hn reps hpos labels hl p' kc2 0 (List.length_pos_iff.2 hne) ?_).2 rfl
  rintro ⟨q, hq⟩
  rw [hnext] at hq
  exact hp ⟨q, by simpa using hq⟩

/-- **C92.** The experiments of the script have values for exactly their labels: 19 domain sizes, 19 claim
probabilities, 3 distributions of trust. -/
theorem C92_single_use (g : Rng α) (normals : Rand (Vec α)) (i : Nat) :
    ((∃ q, NthChoice (newDomainSize g) i q) ↔ i < 19) ∧ ((∃ q, NthChoice (newClaimDensity g) i q) ↔ i < 19) ∧
    ((∃ q, NthChoice (newTrustDist g normals) i q) ↔ i < 3) ∧
    domainSizes.length = 19 ∧ (claimProbs : List α).length = 19 ∧ (trustDists g normals).length = 3 := by
  refine ⟨⟨?_, ?_⟩, ⟨?_, ?_⟩, ⟨?_, ?_⟩, by simp [domainSizes], by simp [claimProbs], rfl⟩
  · rintro ⟨q, -, -, -, h⟩
    have := (List.getElem?_eq_some_iff.1 h).1
    simpa [domainSizes] using this
  · intro h
    exact ⟨⟨_, _, _, _⟩, rfl, rfl, rfl, List.getElem?_eq_getElem (by simpa [domainSizes] using h)⟩
  · rintro ⟨q, -, -, h, -⟩
    have := (List.getElem?_eq_some_iff.1 h).1
    simpa [claimProbs] using this
  · intro h
    exact ⟨⟨_, _, _, _⟩, rfl, rfl, List.getElem?_eq_getElem (by simpa [claimProbs] using h), rfl⟩
  · rintro ⟨q, h, -⟩
    have := (List.getElem?_eq_some_iff.1 h).1
    simpa [trustDists] using this
  · intro h
    exact ⟨⟨_, _, _, _⟩, List.getElem?_eq_getElem (by simpa [trustDists] using h), rfl, rfl, rfl⟩

/-! ### The datasets of the experiments of the script -/

theorem uniformTrust_ok (g : Rng Ex) (hg : UnitDraws g) (n k : Nat) :
    ∃ t : List ℝ, uniformTrust g n k = .ok (t.map Ex.fin, k + n) ∧ t.length = n ∧ ∀ x ∈ t, 0 ≤ x ∧ x < 1 := by
  induction n generalizing k with
  | zero => exact ⟨[], rfl, rfl, by simp⟩
  | succ n ih =>
    obtain ⟨x, hx, h0, h1⟩ := hg k
    obtain ⟨t, ht, hl, hb⟩ := ih (k + 1)
    refine ⟨x :: t, ?_, by simp [hl], ?_⟩
    · simp only [uniformTrust, bind, Rand.bind, Rng.sample, ht, pure, hx, List.map_cons]
      rw [show k + 1 + n = k + (n + 1) by omega]
      rfl
    · intro y hy
      rcases List.mem_cons.1 hy with rfl | hy
      · exact ⟨h0, h1⟩
      · exact hb y hy

theorem trustFrom_unique {q : TrustParam Ex} {k k1 k2 : Nat} {t1 t2 : Vec Ex} (h1 : TrustFrom q k t1 k1)
    (h2 : TrustFrom q k t2 k2) : t1 = t2 ∧ k1 = k2 := by
  cases h1 with
  | array => cases h2; exact ⟨rfl, rfl⟩
  | draw f _ _ _ e =>
    cases h2 with
    | draw _ _ _ _ e' =>
      rw [e] at e'
      cases e'
      exact ⟨rfl, rfl⟩

/-- What is made with acceptable values is shaped by them. -/
theorem made_shape {g : Rng Ex} (hg : UnitDraws g) {q : SynthChoice Ex} {k km : Nat} {t : List ℝ}
    (hq : TrustFrom q.trust k (t.map Ex.fin) km) (ht : t ≠ []) (hb : ∀ x ∈ t, 0 ≤ x ∧ x ≤ 1)
    {p : ℝ} (hp : q.claimProbability = Ex.fin p) (hp0 : 0 < p) (hp1 : p ≤ 1) (hd : 2 ≤ q.domainSize)
    (hv : 1 ≤ q.numVariables) :
    (∃ s k', MadeWith g q k s k') ∧
    ∀ s k', MadeWith g q k s k' → SynthShape t q.numVariables.toNat q.domainSize.toNat s ∧
      (p = 1 → ∀ i < t.length, ∀ j < q.numVariables.toNat, Filled s.data.sv i j) := by
  obtain ⟨t', s', k', h1, h2, h3, h4⟩ := C15_shape g hg ⟨some (t.map Ex.fin), q.numVariables, q.claimProbability, q.domainSize⟩
    ⟨⟨_, rfl, by simpa using ht, by
      intro x hx
      obtain ⟨y, hy, rfl⟩ := List.mem_map.1 hx
      exact ⟨y, rfl, hb y hy⟩⟩, Or.inr ⟨p, hp, hp0, hp1⟩, hd, hv⟩ km
  have e : t = t' := by
    have := Option.some.inj h1
    exact List.map_injective_iff.2 (fun a b h => Ex.fin_inj.1 h) this
  subst e
  refine ⟨⟨s', k', _, km, hq, h2⟩, ?_⟩
  rintro s k'' ⟨t2, km2, ht2, hs⟩
  obtain ⟨rfl, rfl⟩ := trustFrom_unique hq ht2
  rw [h2] at hs
  cases hs
  exact ⟨h3, fun e => h4 (by rw [← e]; exact hp)⟩

/-- **C92.** The datasets of `DomainSizeExperiment` for the label `d` have 100 sources, whose trust values are
in `[0, 1)`, 100 variables and values in `0 .. d-1`, whatever the random numbers. -/
theorem C92_domain_size (g : Rng Ex) (hg : UnitDraws g) (i : Nat) (d : Int) (hd : domainSizes[i]? = some d) :
    ∃ q, NthChoice (newDomainSize g) i q ∧ ∀ q, NthChoice (newDomainSize g) i q → ∀ k,
      (∃ s k', MadeWith g q k s k') ∧
      ∀ s k', MadeWith g q k s k' → ∃ t : List ℝ, t.length = 100 ∧ (∀ x ∈ t, 0 ≤ x ∧ x < 1) ∧
        SynthShape t 100 d.toNat s := by
  refine ⟨⟨.draw (uniformTrust g 100), 100, Arith.lit 1 10, d⟩, ⟨rfl, rfl, rfl, hd⟩, ?_⟩
  rintro ⟨tp, nv, cp, ds⟩ ⟨rfl, rfl, rfl, hds⟩ k
  simp only [newDomainSize, Nth] at hds
  rw [hd] at hds
  cases hds
  obtain ⟨t, ht, hl, hb⟩ := uniformTrust_ok g hg 100 k
  have hd2 : 2 ≤ d := by
    have := List.mem_of_getElem? hd
    simp only [domainSizes, List.mem_map] at this
    obtain ⟨j, -, rfl⟩ := this
    omega
  obtain ⟨h1, h2⟩ := made_shape (q := ⟨.draw (uniformTrust g 100), 100, Arith.lit 1 10, d⟩) hg (.draw _ k _ _ ht)
    (by intro e; simp [e] at hl) (fun x hx => ⟨(hb x hx).1, (hb x hx).2.le⟩) (p := 1 / 10) (by simp [Ex.lit_eq])
    (by norm_num) (by norm_num) hd2 (by norm_num)
  exact ⟨h1, fun s k' hs => ⟨t, hl, hb, (h2 s k' hs).1⟩⟩

/-- **C92.** The label of `ClaimDensityExperiment` is the claim probability `1/10 + i/20` (in exact arithmetic);
the datasets have 100 sources, 100 variables and ten values, and for the last label all cells are filled. -/
theorem C92_claim_density (g : Rng Ex) (hg : UnitDraws g) (i : Nat) (hi : i < 19) :
    (claimProbs : List Ex)[i]? = some (Ex.fin (1 / 10 + i / 20)) ∧
    ∃ q, NthChoice (newClaimDensity g) i q ∧ ∀ q, NthChoice (newClaimDensity g) i q →
      q.claimProbability = Ex.fin (1 / 10 + i / 20) ∧ ∀ k,
      (∃ s k', MadeWith g q k s k') ∧
      ∀ s k', MadeWith g q k s k' → ∃ t : List ℝ, t.length = 100 ∧ (∀ x ∈ t, 0 ≤ x ∧ x < 1) ∧
        SynthShape t 100 10 s ∧ (i = 18 → ∀ a < 100, ∀ b < 100, Filled s.data.sv a b) := by
  have hi' : (i : ℝ) ≤ 18 := by exact_mod_cast Nat.lt_succ_iff.1 hi
  have h0 : (0 : ℝ) ≤ i := Nat.cast_nonneg i
  have hc : (claimProbs : List Ex)[i]? = some (Ex.fin (1 / 10 + i / 20)) := by
    simp only [claimProbs, List.getElem?_map, List.getElem?_range hi, Option.map_some]
    congr 1
    simp only [Ex.lit_eq, Ex.add_eq, Ex.sub_eq, Ex.ofNat_eq, Ex.mul_eq]
    rw [clip01_eq]
    congr 1
    rw [show ((1 : ℤ) : ℝ) / ((10 : ℕ) : ℝ) + (i : ℝ) * (((1 : ℤ) : ℝ) / ((10 : ℕ) : ℝ) + ((1 : ℤ) : ℝ) / ((20 : ℕ) : ℝ) - ((1 : ℤ) : ℝ) / ((10 : ℕ) : ℝ)) =
      1 / 10 + i / 20 by push_cast; ring]
    simp only [clamp]
    rw [max_eq_right (by positivity), min_eq_right (by linarith)]
  refine ⟨hc, ⟨.draw (uniformTrust g 100), 100, Ex.fin (1 / 10 + i / 20), 10⟩, ⟨rfl, rfl, hc, rfl⟩, ?_⟩
  rintro ⟨tp, nv, cp, ds⟩ ⟨rfl, rfl, hcp, rfl⟩
  simp only [newClaimDensity, Nth] at hcp
  rw [hc] at hcp
  cases hcp
  refine ⟨rfl, fun k => ?_⟩
  obtain ⟨t, ht, hl, hb⟩ := uniformTrust_ok g hg 100 k
  obtain ⟨h1, h2⟩ := made_shape (q := ⟨.draw (uniformTrust g 100), 100, Ex.fin (1 / 10 + i / 20), 10⟩) hg (.draw _ k _ _ ht)
    (by intro e; simp [e] at hl) (fun x hx => ⟨(hb x hx).1, (hb x hx).2.le⟩) (p := 1 / 10 + i / 20) rfl
    (by positivity) (by linarith) (by norm_num) (by norm_num)
  refine ⟨h1, fun s k' hs => ⟨t, hl, hb, (h2 s k' hs).1, fun e a ha b hb' => (h2 s k' hs).2 (by rw [e]; norm_num) a (by omega) b hb'⟩⟩

/-- **C92.** `TrustDistExperiment`: 100 sources, 100 variables, five values; with "Mostly Bad" the first 34
sources have trust 3/4 and the others 1/4; with the normal distribution the trust values are those drawn,
cut off at 0 and 1. -/
theorem C92_trust_dist (g : Rng Ex) (hg : UnitDraws g) (normals : Rand (Vec Ex))
    (hn : ∀ k, ∃ v : List ℝ, ∃ k', normals k = .ok (v.map Ex.fin, k') ∧ v.length = 100) (i : Nat) (hi : i < 3) :
    ∃ q, NthChoice (newTrustDist g normals) i q ∧ ∀ q, NthChoice (newTrustDist g normals) i q → ∀ k,
      (∃ s k', MadeWith g q k s k') ∧
      ∀ s k', MadeWith g q k s k' → ∃ t : List ℝ, t.length = 100 ∧ (∀ x ∈ t, 0 ≤ x ∧ x ≤ 1) ∧
        SynthShape t 100 5 s ∧
        (i = 0 → ∀ j < 100, t[j]? = some (if j < 34 then 3 / 4 else 1 / 4)) ∧
        (i = 2 → ∃ v km, normals k = .ok (v, km) ∧ List.Forall₂ (fun (y : Ex) x => ∃ z : ℝ, y = Ex.fin z ∧
          x = max 0 (min 1 z)) v t) := by
  have key : ∀ tp,
      Nth (newTrustDist g normals).trust i tp → ∀ k, ∃ t : List ℝ, ∃ km, TrustFrom tp k (t.map Ex.fin) km ∧
      t.length = 100 ∧ (∀ x ∈ t, 0 ≤ x ∧ x ≤ 1) ∧
        (i = 0 → ∀ j < 100, t[j]? = some (if j < 34 then 3 / 4 else 1 / 4)) ∧
        (i = 2 → ∃ v km, normals k = .ok (v, km) ∧ List.Forall₂ (fun (y : Ex) x => ∃ z : ℝ, y = Ex.fin z ∧
          x = max 0 (min 1 z)) v t) := by
    intro tp htp k
    have : i = 0 ∨ i = 1 ∨ i = 2 := by omega
    rcases this with rfl | rfl | rfl
    · simp only [newTrustDist, trustDists, Nth, List.map_cons, List.getElem?_cons_zero, Option.some.injEq] at htp
      subst htp
      refine ⟨(List.range 100).map fun j => if j < 34 then 3 / 4 else 1 / 4, k, ?_, by simp, ?_, ?_, by simp⟩
      · have : (((List.range 100).map fun j => if j < 34 then (3 / 4 : ℝ) else 1 / 4).map Ex.fin) = mostlyBad := by
          rw [mostlyBad, List.map_map]
          refine List.map_congr_left fun j _ => ?_
          simp only [Function.comp]
          by_cases h : j < 34
          · rw [if_pos h, if_pos (by omega)]
            simp [Ex.lit_eq]
          · rw [if_neg h, if_neg (by omega)]
            simp [Ex.lit_eq]
        rw [this]
        exact .array _ k
      · intro x hx
        obtain ⟨j, -, rfl⟩ := List.mem_map.1 hx
        split <;> norm_num
      · intro _ j hj
        rw [List.getElem?_map, List.getElem?_range hj]
        rfl
    · simp only [newTrustDist, trustDists, Nth, List.map_cons, List.getElem?_cons_succ, List.getElem?_cons_zero, Option.some.injEq] at htp
      subst htp
      obtain ⟨t, ht, hl, hb⟩ := uniformTrust_ok g hg 100 k
      exact ⟨t, _, .draw _ k _ _ ht, hl, fun x hx => ⟨(hb x hx).1, (hb x hx).2.le⟩, by simp, by simp⟩
    · simp only [newTrustDist, trustDists, Nth, List.map_cons, List.getElem?_cons_succ, List.getElem?_cons_zero, Option.some.injEq] at htp
      subst htp
      obtain ⟨v, k', hv, hl⟩ := hn k
      refine ⟨v.map clamp, k', .draw _ k _ _ ?_, by simpa using hl, ?_, by simp, fun _ => ⟨_, _, hv, ?_⟩⟩
      · simp only [hv, List.map_map]
        congr 3
        funext x
        exact clip01_eq x
      · intro x hx
        obtain ⟨y, -, rfl⟩ := List.mem_map.1 hx
        simp only [clamp]
        constructor <;> simp
      · clear hl hv
        induction v with
        | nil => exact .nil
        | cons z v ih =>
          refine .cons ⟨z, rfl, ?_⟩ ih
          simp only [clamp]
          first | rfl | simp [min_comm, max_comm] | skip
  have hex : ∃ tp, Nth (newTrustDist g normals).trust i tp := by
    have : i = 0 ∨ i = 1 ∨ i = 2 := by omega
    rcases this with rfl | rfl | rfl <;> exact ⟨_, rfl⟩
  obtain ⟨tp, htp⟩ := hex
  refine ⟨⟨tp, 100, Arith.lit 1 10, 5⟩, ⟨htp, rfl, rfl, rfl⟩, ?_⟩
  rintro ⟨tp, nv, cp, ds⟩ ⟨htp, rfl, rfl, rfl⟩ k
  obtain ⟨t, km, hf, hl, hb, ha, hc⟩ := key tp htp k
  obtain ⟨h1, h2⟩ := made_shape (q := ⟨tp, 100, Arith.lit 1 10, 5⟩) hg hf
    (by intro e; simp [e] at hl) hb (p := 1 / 10) (by simp [Ex.lit_eq])
    (by norm_num) (by norm_num) (by norm_num) (by norm_num)
  exact ⟨h1, fun s k' hs => ⟨t, hl, hb, (h2 s k' hs).1, ha, hc⟩⟩

/-! ### How an experiment fails -/

theorem accuracy_fails {R : Rounding} {s : SupervisedMatrix Nat (FP R)} (hs : MatrixDataset.mk' (.two s.data.sv) = .ok s.data)
    {a : AnyAlg (FP R)} {fuel : Nat} {clock : Nat → FP R} {r : Result Nat Nat Nat (FP R)}
    (h : a.run s.data.data fuel clock = .ok r) {pick : Nat → Nat → Nat} {e : PyErr}
    (he : getAccuracy s.values pick r = .error e) : e = .valueError ∧ ¬ Contested s := by
  obtain ⟨md, l, b1, -, b2, b3, -, brec, -⟩ := C10_claims_are_cells (α := FP R) one_ne_zero_fp s.data.sv false
  rw [hs] at b1
  cases b1
  have hcl : ∀ j x, (j, x) ∈ allClaims l ↔ ∃ i, Holds s.data.sv i j x := by
    intro j x
    rw [mem_allClaims l, mem_claims l, brec]
    simp only [← b3]
    constructor
    · rintro ⟨⟨i, c⟩, h, rfl⟩
      exact ⟨i, h⟩
    · rintro ⟨i, h⟩
      exact ⟨(i, j, x), h, rfl⟩
  obtain ⟨h1, h2⟩ := C14_runs l false none _ b2 a fuel clock r h s.values pick
  by_cases hc : ∃ p ∈ s.values, ∃ x y, x ≠ y ∧ (p.1, x) ∈ allClaims l ∧ (p.1, y) ∈ allClaims l
  · obtain ⟨acc, h3, -⟩ := h1 hc
    rw [h3] at he
    cases he
  · rw [h2 hc] at he
    cases he
    refine ⟨rfl, ?_⟩
    rintro ⟨j, v, hj, i, i', x, y, hxy, hx, hy⟩
    exact hc ⟨(j, v), mem_of_lookup_some hj, x, y, hxy, (hcl j x).2 ⟨i, hx⟩, (hcl j y).2 ⟨i', hy⟩⟩

theorem trialAlgs_fails {R : Rounding} {env : TrialEnv (FP R)} {s : SupervisedMatrix Nat (FP R)}
    (hs : MatrixDataset.mk' (.two s.data.sv) = .ok s.data) {algs : List (Text × AnyAlg (FP R))}
    {res : Dict Text (List (FP R))} {c : Nat} {e : PyErr} (h : trialAlgs env s algs res c = .error e) :
    (∃ p ∈ algs, ∃ c', p.2.run s.data.data env.fuel (env.clock c') = .error e) ∨ e = .valueError ∧ ¬ Contested s := by
  induction algs generalizing res c with
  | nil => cases h
  | cons q rest ih =>
    obtain ⟨label, a⟩ := q
    simp only [trialAlgs] at h
    split at h
    · rename_i e' hr
      cases h
      exact .inl ⟨(label, a), by simp, c, hr⟩
    rename_i r hr
    split at h
    · rename_i e' hacc
      cases h
      exact .inr (accuracy_fails hs hr hacc)
    · rcases ih h with ⟨p, hp, c', h'⟩ | h'
      · exact .inl ⟨p, List.mem_cons_of_mem _ hp, c', h'⟩
      · exact .inr h'

theorem trialData_made {g : Rng α} {q : SynthChoice α} {k k' : Nat} {s : SupervisedMatrix Nat α}
    (h : MadeWith g q k s k') : trialData g q k = .ok (s, k') := by
  obtain ⟨tp, nv, cp, ds⟩ := q
  obtain ⟨t, km, ht, hs⟩ := h
  unfold trialData
  cases ht with
  | array => exact hs
  | draw f _ _ _ hf =>
    simp only [callTrust, hf]
    exact hs

theorem synth_data_ok {R : Rounding} {g : Rng (FP R)} {q : SynthChoice (FP R)} {k k' : Nat} {s : SupervisedMatrix Nat (FP R)}
    (h : MadeWith g q k s k') : MatrixDataset.mk' (.two s.data.sv) = .ok s.data := by
  obtain ⟨t, km, -, hs⟩ := h
  simp only [synthNew, bind, Rand.bind] at hs
  cases hm : synthMake g ⟨some t, q.numVariables, q.claimProbability, q.domainSize⟩ km with
  | error e => rw [hm] at hs; cases hs
  | ok o =>
  rw [hm] at hs
  dsimp only at hs
  cases hd : MatrixDataset.mk' (α := FP R) (.two o.1.sv) with
  | error e => rw [hd] at hs; cases hs
  | ok d =>
  rw [hd] at hs
  cases hs
  obtain ⟨md, -, h1, h2, -⟩ := C10_claims_are_cells (α := FP R) one_ne_zero_fp o.1.sv false
  rw [hd] at h1
  cases h1
  rw [h2]
  exact hd

theorem trialReps_fails {R : Rounding} {env : TrialEnv (FP R)} {algs : List (Text × AnyAlg (FP R))} {q : SynthChoice (FP R)}
    (hq : ∀ k, ∃ s k', MadeWith env.rng q k s k') {n : Nat} {res : Dict Text (List (FP R))} {kc : Nat × Nat} {e : PyErr}
    (h : trialReps env algs q n res kc = .error e) :
    ∃ s k k', MadeWith env.rng q k s k' ∧
      ((∃ p ∈ algs, ∃ c', p.2.run s.data.data env.fuel (env.clock c') = .error e) ∨ e = .valueError ∧ ¬ Contested s) := by
  induction n generalizing res kc with
  | zero => cases h
  | succ n ih =>
    obtain ⟨k, c⟩ := kc
    obtain ⟨s, k', hs⟩ := hq k
    simp only [trialReps, trialData_made hs] at h
    split at h
    · rename_i e' he
      cases h
      exact ⟨s, k, k', hs, trialAlgs_fails (synth_data_ok hs) he⟩
    · exact ih h

theorem nth_unique {β : Type} {p : Supply β} {i : Nat} {a b : β} (ha : Nth p i a) (hb : Nth p i b) : a = b := by
  cases p with
  | rest l => exact Option.some.inj (ha.symm.trans hb)
  | always c => exact ha.trans hb.symm

theorem nthChoice_unique {p : SynthParams α} {i : Nat} {q q' : SynthChoice α} (h : NthChoice p i q) (h' : NthChoice p i q') :
    q = q' := by
  obtain ⟨a, b, c, d⟩ := q
  obtain ⟨a', b', c', d'⟩ := q'
  obtain rfl : a = a' := nth_unique h.1 h'.1
  obtain rfl : b = b' := nth_unique h.2.1 h'.2.1
  obtain rfl : c = c' := nth_unique h.2.2.1 h'.2.2.1
  obtain rfl : d = d' := nth_unique h.2.2.2 h'.2.2.2
  rfl

/-- **C92.** If datasets can be made for all labels, an experiment fails only because one of the algorithms does on
one of the datasets, with its exception, or with `ValueError` because no variable of a dataset is contested. -/
theorem C92_failures {R : Rounding} (env : TrialEnv (FP R)) (algs : List (Text × AnyAlg (FP R))) (reps : Nat) (labels : List L)
    (p : SynthParams (FP R))
    (hp : ∀ i < labels.length, ∃ q, NthChoice p i q ∧ ∀ k, ∃ s k', MadeWith env.rng q k s k')
    (kc : Nat × Nat) (out : Dict L (Dict Text (List (FP R)))) (e : TrialErr)
    (h : experimentRun env algs reps labels out p kc = .error e) :
    ∃ e', e = .py e' ∧ ∃ i < labels.length, ∃ q s k k', NthChoice p i q ∧ MadeWith env.rng q k s k' ∧
      ((∃ a ∈ algs, ∃ c, a.2.run s.data.data env.fuel (env.clock c) = .error e') ∨ e' = .valueError ∧ ¬ Contested s) := by
  induction labels generalizing out p kc with
  | nil => cases h
  | cons label rest ih =>
    obtain ⟨q, hq, hmade⟩ := hp 0 (by simp)
    simp only [experimentRun] at h
    cases hn : p.next with
    | none =>
      exfalso
      obtain ⟨a1, a2, a3, a4⟩ := hq
      simp only [SynthParams.next] at hn
      cases h1 : p.trust.next with
      | none => exact Supply.next_none.1 h1 ⟨_, a1⟩
      | some x1 =>
      cases h2 : p.numVariables.next with
      | none => exact Supply.next_none.1 h2 ⟨_, a2⟩
      | some x2 =>
      cases h3 : p.claimProbability.next with
      | none => exact Supply.next_none.1 h3 ⟨_, a3⟩
      | some x3 =>
      cases h4 : p.domainSize.next with
      | none => exact Supply.next_none.1 h4 ⟨_, a4⟩
      | some x4 => simp [h1, h2, h3, h4] at hn
    | some x =>
      obtain ⟨q', p'⟩ := x
      obtain ⟨hq', hshift⟩ := SynthParams.next_some hn
      obtain rfl := nthChoice_unique hq hq'
      rw [hn] at h
      dsimp only at h
      split at h
      · rename_i e' he
        cases h
        obtain ⟨s, k, k', h1, h2⟩ := trialReps_fails hmade he
        exact ⟨e', rfl, 0, by simp, q, s, k, k', hq, h1, h2⟩
      · obtain ⟨e', rfl, i, hi, q2, s, k, k', h1, h2⟩ := ih p' (by
          intro i hi
          obtain ⟨q2, h1, h2⟩ := hp (i + 1) (by simpa using hi)
          exact ⟨q2, (hshift i q2).2 h1, h2⟩) _ _ h
        exact ⟨e', rfl, i + 1, by simpa using hi, q2, s, k, k', (hshift i q2).1 h1, h2⟩

theorem experimentAlgorithms_eq : experimentAlgorithms (α := α) = .ok
    [("Voting".toList, .voting), ("Sums".toList, .iter ⟨.sums, .fixed 20, some .fixed⟩),
      ("Average.Log".toList, .iter ⟨.averageLog, .fixed 20, some .fixed⟩),
      ("Investment".toList, .iter ⟨.investment (Arith.lit 12 10), .fixed 20, some .voted⟩),
      ("Pooled Investment".toList, .iter ⟨.pooledInvestment (Arith.lit 14 10), .fixed 10, some .uniform⟩),
      ("TruthFinder".toList, .iter ⟨.truthFinder (Arith.lit 1 2) (Arith.lit 3 10) (Arith.lit 9 10),
        .conv (some .cosine) (Arith.lit 1 1000) 1000000, some .fixed⟩)] := rfl

/-- **C92.** The experiments of the script, with its algorithms, whatever the random numbers: if one fails, it is because
TruthFinder does not converge on a dataset, or because a dataset has no contested variable. -/
theorem C92_script (env : TrialEnv Ex) (hg : UnitDraws env.rng) (hf : 1000000 < env.fuel) (normals : Rand (Vec Ex))
    (hn : ∀ k, ∃ v : List ℝ, ∃ k', normals k = .ok (v.map Ex.fin, k') ∧ v.length = 100)
    (algs : List (Text × AnyAlg Ex)) (ha : experimentAlgorithms = .ok algs) (reps : Nat) (labels : List L) (p : SynthParams Ex)
    (hp : p = newDomainSize env.rng ∧ labels.length = domainSizes.length ∨
      p = newClaimDensity env.rng ∧ labels.length = (claimProbs : List Ex).length ∨
      p = newTrustDist env.rng normals ∧ labels.length = (trustDists env.rng normals).length)
    (kc : Nat × Nat) (e : TrialErr) (h : experimentRun env algs reps labels [] p kc = .error e) :
    ∃ i < labels.length, ∃ q s k k', NthChoice p i q ∧ MadeWith env.rng q k s k' ∧
      (e = .py .convergence ∧ (∃ c a, ("TruthFinder".toList, a) ∈ algs ∧
        a.run s.data.data env.fuel (env.clock c) = .error .convergence) ∨
      e = .py .valueError ∧ ¬ Contested s) := by
  have hmade : ∀ i < labels.length, ∃ q, NthChoice p i q ∧ ∀ q, NthChoice p i q → ∀ k,
      (∃ s k', MadeWith env.rng q k s k') ∧
      ∀ s k', MadeWith env.rng q k s k' → ∃ (t : List ℝ) (d : Nat), t.length = 100 ∧ SynthShape t 100 d s := by
    intro i hi
    rcases hp with ⟨rfl, hl⟩ | ⟨rfl, hl⟩ | ⟨rfl, hl⟩
    · obtain ⟨q, h1, h2⟩ := C92_domain_size env.rng hg i domainSizes[i] (List.getElem?_eq_getElem (by omega))
      refine ⟨q, h1, fun q hq k => ⟨(h2 q hq k).1, fun s k' hs => ?_⟩⟩
      obtain ⟨t, h3, -, h4⟩ := (h2 q hq k).2 s k' hs
      exact ⟨t, _, h3, h4⟩
    · obtain ⟨-, q, h1, h2⟩ := C92_claim_density env.rng hg i (by rw [hl] at hi; simpa [claimProbs] using hi)
      refine ⟨q, h1, fun q hq k => ⟨((h2 q hq).2 k).1, fun s k' hs => ?_⟩⟩
      obtain ⟨t, h3, -, h4, -⟩ := ((h2 q hq).2 k).2 s k' hs
      exact ⟨t, _, h3, h4⟩
    · obtain ⟨q, h1, h2⟩ := C92_trust_dist env.rng hg normals hn i (by rw [hl] at hi; simpa [trustDists] using hi)
      refine ⟨q, h1, fun q hq k => ⟨(h2 q hq k).1, fun s k' hs => ?_⟩⟩
      obtain ⟨t, h3, -, h4, -⟩ := (h2 q hq k).2 s k' hs
      exact ⟨t, _, h3, h4⟩
  obtain ⟨e', rfl, i, hi, q, s, k, k', h1, h2, h3⟩ := C92_failures env algs reps labels p (fun i hi => by
    obtain ⟨q, h1, h2⟩ := hmade i hi
    exact ⟨q, h1, fun k => (h2 q h1 k).1⟩) kc [] e h
  refine ⟨i, hi, q, s, k, k', h1, h2, ?_⟩
  rcases h3 with ⟨a, hmem, c, hrun⟩ | ⟨rfl, hno⟩
  · left
    obtain ⟨-, -, hq⟩ := hmade i hi
    obtain ⟨t, d, htl, hsh⟩ := (hq q h1 k).2 s k' h2
    obtain ⟨md, l, b1, -, b2, b3, -⟩ := C10_claims_are_cells (α := Ex) ex_one_ne_zero s.data.sv false
    have := hsh.data
    rw [b1] at this
    cases this
    have hl : l ≠ [] := by
      rintro rfl
      obtain ⟨i, v, hv⟩ := hsh.every_variable 0 (by norm_num)
      have := (b3 i 0 v).2 hv
      simp at this
    rw [experimentAlgorithms_eq] at ha
    cases ha
    have key : ∀ c' : AlgCfg Ex, c'.priors ≠ none → c'.kind ≠ .unboundedSums → (∀ n, c'.iterator ≠ .ord n) →
        (∀ th lim, c'.iterator ≠ .conv none th lim) → c'.run s.data.data env.fuel (env.clock c) = .error e' →
        (∀ n, c'.iterator = .fixed n → n ≤ 1000000) → (∀ ms th n, c'.iterator = .conv ms th n → n ≤ 1000000) →
        e' = .convergence ∧ ∃ ms th lim, c'.iterator = .conv ms th lim := by
      intro c' hp hk ho hm hr hb1 hb2
      rcases C76_exceptions ex_one_ne_zero l hl false none _ b2 c' hp hk ho hm env.fuel (env.clock c) {} e' (.inl hr) with
        h | ⟨-, h4, h5⟩
      · exact h
      · exfalso
        cases hit : c'.iterator with
        | fixed n =>
          have := h4 n hit
          have := hb1 n hit
          omega
        | conv ms th n =>
          have := h5 ms th n hit
          have := hb2 ms th n hit
          omega
        | ord n => exact ho n hit
    simp only [List.mem_cons, List.not_mem_nil, or_false] at hmem
    rcases hmem with rfl | rfl | rfl | rfl | rfl | rfl
    · obtain ⟨r, hr, -⟩ := C29_voting l false none _ b2 hl (env.clock c)
      simp only [AnyAlg.run] at hrun
      rw [hr] at hrun
      cases hrun
    · obtain ⟨-, _, _, _, h⟩ := key _ (by simp) (by simp) (by simp) (by simp) hrun (by simp) (by simp)
      cases h
    · obtain ⟨-, _, _, _, h⟩ := key _ (by simp) (by simp) (by simp) (by simp) hrun (by simp) (by simp)
      cases h
    · obtain ⟨-, _, _, _, h⟩ := key _ (by simp) (by simp) (by simp) (by simp) hrun (by simp) (by simp)
      cases h
    · obtain ⟨-, _, _, _, h⟩ := key _ (by simp) (by simp) (by simp) (by simp) hrun (by simp) (by simp)
      cases h
    · obtain ⟨rfl, -⟩ := key _ (by simp) (by simp) (by simp) (by simp) hrun (by simp) (by simp)
      exact ⟨rfl, c, _, by simp, hrun⟩
  · exact .inr ⟨rfl, hno⟩

/-! ### `timing_test.py` -/

theorem timeAlgs_ok {X : Type} [DecidableEq X] {env : TrialEnv α} {d : MatrixDataset X α} {algs : List (Text × AnyAlg α)}
    {res res' : Dict Text (List α)} {c c' : Nat} (hn : (algs.map Prod.fst).Nodup)
    (h : timeAlgs env d algs res c = .ok (res', c')) :
    c' = c + algs.length ∧ (∀ k ∉ algs.map Prod.fst, res'.get? k = res.get? k) ∧
    (∀ (t : Nat) (p : Text × AnyAlg α), algs[t]? = some p → ∃ r : Result Nat Nat X α, p.2.run d.data env.fuel (env.clock (c + t)) = .ok r ∧
      res'.get? p.1 = some ((res.get? p.1).getD [] ++ [r.time])) ∧
    ((∀ p ∈ algs, p.1 ∈ res.keys) → res'.keys = res.keys) ∧
    ((∀ p ∈ algs, p.1 ∉ res.keys) → res'.keys = res.keys ++ algs.map Prod.fst) := by
  induction algs generalizing res c with
  | nil =>
    cases h
    refine ⟨rfl, fun _ _ => rfl, fun t p e => by simp at e, fun _ => rfl, fun _ => by simp⟩
  | cons q rest ih =>
    obtain ⟨label, a⟩ := q
    simp only [timeAlgs] at h
    split at h
    · cases h
    rename_i r hr
    have hset : ∃ res1 : Dict Text (List α), (timeAlgs env d rest res1 (c + 1) = .ok (res', c')) ∧
        (∀ k, res1.get? k = if k = label then some ((res.get? label).getD [] ++ [r.time]) else res.get? k) ∧
        res1.keys = if label ∈ res.keys then res.keys else res.keys ++ [label] := by
      refine ⟨_, h, ?_, ?_⟩
      · intro k
        rw [get?_set]
        by_cases hk : k = label
        · rw [if_pos hk, if_pos hk]
          by_cases hh : res.has label = true
          · rw [if_pos hh]
          · rw [if_neg hh, get?_set, if_pos rfl]
            have : res.get? label = none := by
              simpa [Dict.has] using hh
            rw [this]
            rfl
        · rw [if_neg hk, if_neg hk]
          by_cases hh : res.has label = true
          · rw [if_pos hh]
          · rw [if_neg hh, get?_set, if_neg hk]
      · by_cases hh : res.has label = true
        · rw [if_pos hh, keys_set]
          by_cases hl : label ∈ res.keys
          · simp [hl]
          · simp [hl]
        · rw [if_neg hh, keys_set, keys_set]
          by_cases hl : label ∈ res.keys
          · simp [hl]
          · simp [hl]
    obtain ⟨res1, h1, hg1, hks⟩ := hset
    simp only [List.map_cons, List.nodup_cons] at hn
    obtain ⟨e, hother, hent, hk1, hk2⟩ := ih hn.2 h1
    have hne : ∀ p ∈ rest, p.1 ≠ label := by
      rintro p hp rfl
      exact hn.1 (List.mem_map_of_mem hp)
    refine ⟨by rw [e, List.length_cons]; omega, ?_, ?_, ?_, ?_⟩
    · intro k hk
      simp only [List.map_cons, List.mem_cons, not_or] at hk
      rw [hother k hk.2, hg1, if_neg hk.1]
    · intro t p ht
      cases t with
      | zero =>
        cases ht
        refine ⟨r, hr, ?_⟩
        rw [hother label hn.1, hg1, if_pos rfl]
      | succ t =>
        obtain ⟨x, hx, hg⟩ := hent t p (by simpa using ht)
        refine ⟨x, by rw [show c + (t + 1) = c + 1 + t by omega]; exact hx, ?_⟩
        have hp : p ∈ rest := List.mem_of_getElem? (by simpa using ht)
        rw [hg, hg1, if_neg (hne p hp)]
    · intro hin
      have hl : label ∈ res.keys := hin (label, a) (by simp)
      rw [hk1, hks, if_pos hl]
      intro p hp
      rw [hks, if_pos hl]
      exact hin p (by simp [hp])
    · intro hout
      have hl : label ∉ res.keys := hout (label, a) (by simp)
      rw [hk2, hks, if_neg hl]
      · simp
      · intro p hp
        rw [hks, if_neg hl]
        simp only [List.mem_append, List.mem_singleton, not_or]
        exact ⟨hout p (by simp [hp]), hne p hp⟩

theorem holds_subGrid {X : Type} (g : Grid X) (n m i j : Nat) (v : X) :
    Holds (subGrid g n m) i j v ↔ CellOf g n m i j v := by
  simp only [Holds, CellOf, subGrid, List.getElem?_map, List.getElem?_take]
  constructor
  · rintro ⟨row, h1, h2⟩
    split at h1
    · rename_i hi
      cases hg : g[i]? with
      | none => simp [hg] at h1
      | some r =>
        simp only [hg, Option.map_some, Option.some.injEq] at h1
        subst h1
        rw [List.getElem?_take] at h2
        split at h2
        · rename_i hj
          exact ⟨hi, hj, r, rfl, h2⟩
        · cases h2
    · cases h1
  · rintro ⟨hi, hj, r, h1, h2⟩
    refine ⟨r.take m, by rw [if_pos hi, h1]; rfl, ?_⟩
    rw [List.getElem?_take, if_pos hj, h2]

theorem performTest_ok {X : Type} [DecidableEq X] {env : TrialEnv α} {algs : List (Text × AnyAlg α)}
    (hn : (algs.map Prod.fst).Nodup) {sv : Grid X} {shapes : List (Nat × Nat)} {res res' : Dict Text (List α)} {c c' : Nat}
    (h : performTest env algs sv shapes res c = .ok (res', c')) :
    ((∀ p ∈ algs, p.1 ∈ res.keys) → res'.keys = res.keys) ∧
    (shapes ≠ [] → (∀ p ∈ algs, p.1 ∉ res.keys) → res'.keys = res.keys ++ algs.map Prod.fst) ∧
    ∀ (t : Nat) (p : Text × AnyAlg α), algs[t]? = some p → ∃ ts : List α, ts.length = shapes.length ∧
      ((res'.get? p.1).getD [] = (res.get? p.1).getD [] ++ ts) ∧
      ∀ (i n m : Nat), shapes[i]? = some (n, m) → ∃ (d : MatrixDataset X α) (r : Result Nat Nat X α), MatrixDataset.mk' (.two (subGrid sv n m)) = .ok d ∧
        p.2.run d.data env.fuel (env.clock (c + i * algs.length + t)) = .ok r ∧ ts[i]? = some r.time := by
  induction shapes generalizing res c with
  | nil =>
    cases h
    exact ⟨fun _ => rfl, by simp, fun t p _ => ⟨[], rfl, by simp, by simp⟩⟩
  | cons sh shapes ih =>
    obtain ⟨n, m⟩ := sh
    simp only [performTest] at h
    split at h
    · cases h
    rename_i d hd
    split at h
    · cases h
    rename_i res1 c1 h1
    obtain ⟨e, hother, hent, hk1, hk2⟩ := timeAlgs_ok hn h1
    obtain ⟨i1, i2, i3⟩ := ih h
    refine ⟨?_, ?_, ?_⟩
    · intro hin
      rw [i1, hk1 hin]
      intro p hp
      rw [hk1 hin]
      exact hin p hp
    · intro _ hout
      rw [i1, hk2 hout]
      intro p hp
      rw [hk2 hout]
      exact List.mem_append_right _ (List.mem_map_of_mem hp)
    · intro t p ht
      obtain ⟨r, hr, hg⟩ := hent t p ht
      obtain ⟨ts, hl, hres, hts⟩ := i3 t p ht
      refine ⟨r.time :: ts, by simp [hl], ?_, ?_⟩
      · rw [hres, hg]
        simp
      · intro i n' m' hi
        cases i with
        | zero =>
          cases hi
          exact ⟨d, r, hd, by simpa using hr, rfl⟩
        | succ i =>
          obtain ⟨d', r', a1, a2, a3⟩ := hts i n' m' (by simpa using hi)
          refine ⟨d', r', a1, ?_, by simpa using a3⟩
          rw [← a2, e]
          congr 2
          ring

/-- **C93.** `perform_test`: for every algorithm one time for every shape, in the order of the shapes: the
time of a run on the dataset that claims exactly what the first `n` rows and `m` columns of the matrix
hold.  No run reads the clock of another. -/
theorem C93_times {X : Type} [DecidableEq X] (h10 : Arith.eq (Arith.ofNat 1 : α) (Arith.ofNat 0) = false)
    (env : TrialEnv α) (algs : List (Text × AnyAlg α)) (hn : (algs.map Prod.fst).Nodup)
    (sv : Grid X) (shapes : List (Nat × Nat)) (hne : shapes ≠ []) (c c' : Nat) (res : Dict Text (List α))
    (h : performTest env algs sv shapes [] c = .ok (res, c')) :
    res.keys = algs.map Prod.fst ∧
    ∀ (t : Nat) (p : Text × AnyAlg α), algs[t]? = some p → ∃ ts : List α, res.get? p.1 = some ts ∧ ts.length = shapes.length ∧
      ∀ (i n m : Nat), shapes[i]? = some (n, m) → ∃ (l : List (Nat × Nat × X)) (d : Dataset Nat Nat X α) (r : Result Nat Nat X α),
        Dataset.mk' l false none = .ok d ∧ (∀ a b v, (a, b, v) ∈ l ↔ CellOf sv n m a b v) ∧
        p.2.run d env.fuel (env.clock (c + i * algs.length + t)) = .ok r ∧ ts[i]? = some r.time ∧
        r.time = env.clock (c + i * algs.length + t) 1 -. env.clock (c + i * algs.length + t) 0 := by
  obtain ⟨-, h2, h3⟩ := performTest_ok hn h
  have hkeys : res.keys = algs.map Prod.fst := by
    rw [h2 hne (fun p _ => by simp [Dict.keys])]
    simp [Dict.keys]
  refine ⟨hkeys, fun t p ht => ?_⟩
  obtain ⟨ts, hl, hres, hts⟩ := h3 t p ht
  refine ⟨ts, ?_, hl, ?_⟩
  · have hpos : 0 < ts.length := by rw [hl]; exact List.length_pos_iff.2 hne
    cases hg : res.get? p.1 with
    | none =>
      rw [hg] at hres
      simp only [Option.getD_none, Dict.get?, List.lookup_nil, List.nil_append] at hres
      rw [← hres] at hpos
      simp at hpos
    | some x =>
      rw [hg] at hres
      simpa [Dict.get?] using hres
  · intro i n m hi
    obtain ⟨d, r, a1, a2, a3⟩ := hts i n m hi
    obtain ⟨md, l, b1, -, b2, b3, -⟩ := C10_claims_are_cells h10 (subGrid sv n m) false
    rw [b1] at a1
    cases a1
    refine ⟨l, _, r, b2, fun a b v => (b3 a b v).trans (holds_subGrid sv n m a b v), a2, a3, ?_⟩
    exact C60_run_time p.2 _ env.fuel _ r a2

/-- **C93.** The shapes of the two tests: `n` sources and 500 variables, and 500 sources and `n` variables,
for `n = 100, 300, …, 1900`: as many as the sizes the times are plotted against. -/
theorem C93_shapes :
    timingShapes.1.length = dataSizes.length ∧ timingShapes.2.length = dataSizes.length ∧
    ∀ i n, dataSizes[i]? = some n ↔ i < 10 ∧ n = 100 + 200 * i ∧ timingShapes.1[i]? = some (n, 500) ∧
      timingShapes.2[i]? = some (500, n) := by
  refine ⟨by simp [timingShapes], by simp [timingShapes], fun i n => ?_⟩
  simp only [timingShapes, dataSizes, List.getElem?_map]
  by_cases hi : i < 10
  · rw [List.getElem?_range hi]
    simp [hi]
    omega
  · have : (List.range 10)[i]? = none := by simp; omega
    rw [this]
    simp [hi]

/-! ### Instances -/

/-- Draws of 0; 2 ticks of the clock per run. -/
def Toy.trialEnv : TrialEnv Int := ⟨⟨fun _ => 0, fun k => k⟩, fun _ _ _ => 0, fun c k => 10 * c + 2 * k, 10⟩

/-- Two labels: a fixed trust vector, and one drawn for each dataset. -/
def Toy.trialParams : SynthParams Int :=
  ⟨.rest [.array [1, 0, 1], .draw (uniformTrust ⟨fun k => k % 2, fun k => k⟩ 3)], .always 2, .always 1, .rest [2, 2]⟩

/-- Voting under two names. -/
def Toy.trialAlgs : List (Text × AnyAlg Int) := [("Voting".toList, .voting), ("again".toList, .voting)]

theorem Toy.trial_ok : ∃ p' k' c', experimentRun Toy.trialEnv Toy.trialAlgs 2 ["a", "b"] [] Toy.trialParams (0, 0) =
    .ok ([("a", [("Voting".toList, [1, 1]), ("again".toList, [1, 1])]),
      ("b", [("Voting".toList, [0, 1]), ("again".toList, [0, 1])])], p', k', c') := by
  have h : (experimentRun Toy.trialEnv Toy.trialAlgs 2 ["a", "b"] [] Toy.trialParams (0, 0)).toOption.map (fun x => x.1) =
      some [("a", [("Voting".toList, [1, 1]), ("again".toList, [1, 1])]),
        ("b", [("Voting".toList, [0, 1]), ("again".toList, [0, 1])])] := by decide +kernel
  cases he : experimentRun Toy.trialEnv Toy.trialAlgs 2 ["a", "b"] [] Toy.trialParams (0, 0) with
  | error e => rw [he] at h; cases h
  | ok x =>
    rw [he] at h
    obtain ⟨out, p', k', c'⟩ := x
    cases h
    exact ⟨p', k', c', rfl⟩

example : ∃ out p' k' c', experimentRun Toy.trialEnv Toy.trialAlgs 2 ["a", "b"] [] Toy.trialParams (0, 0) =
    .ok (out, p', k', c') ∧ out.keys = ["a", "b"] ∧ ¬ ∃ q, NthChoice Toy.trialParams 2 q := by
  obtain ⟨p', k', c', h⟩ := Toy.trial_ok
  refine ⟨_, p', k', c', h, (C92_results Toy.trialEnv Toy.trialAlgs (by decide) 2 (by norm_num) ["a", "b"] (by decide)
    _ _ _ _ _ _ _ h).1, ?_⟩
  rintro ⟨q, -, -, -, h⟩
  cases h

example (kc : Nat × Nat) : ∃ p', experimentRun Toy.trialEnv Toy.trialAlgs 2 ["a", "b"] [] p' kc = .error .runtimeError := by
  obtain ⟨p', k', c', h⟩ := Toy.trial_ok
  exact ⟨p', C92_second_run Toy.trialEnv Toy.trialAlgs (by decide) 2 (by norm_num) ["a", "b"] (by decide) (by simp) _ p'
    (by rintro ⟨q, -, -, -, h⟩; cases h) _ _ kc _ h⟩

example := C92_domain_size Toy.rng Toy.rng_unit 5 7 rfl
example := C92_claim_density Toy.rng Toy.rng_unit 18 (by norm_num)
example := C92_trust_dist Toy.rng Toy.rng_unit (fun k => .ok ((List.replicate 100 (2 : ℝ)).map Ex.fin, k))
  (fun k => ⟨_, k, rfl, by simp⟩) 2 (by norm_num)

/-- An honest source and a liar, one variable with two values. -/
noncomputable def Toy.contestedParams : SynthParams Ex :=
  ⟨.always (.array ([1, 0].map Ex.fin)), .always 1, .always (Ex.fin 1), .always 2⟩

/-- Exact arithmetic, draws of 0. -/
noncomputable def Toy.exactEnv : TrialEnv Ex := ⟨Toy.rng, fun _ _ _ => 0, fun _ _ => Ex.fin 0, 10⟩

theorem Toy.contested_ok : ∃ x, experimentRun Toy.exactEnv [("Voting".toList, .voting)] 2 [3, 4] [] Toy.contestedParams (0, 0) = .ok x := by
  have hmade : ∀ i q, NthChoice Toy.contestedParams i q → ∀ k, (∃ s k', MadeWith Toy.rng q k s k') ∧
      ∀ s k', MadeWith Toy.rng q k s k' → Contested s ∧ ∃ l : List (Nat × Nat × Nat), l ≠ [] ∧
        Dataset.mk' l false none = .ok s.data.data := by
    rintro i ⟨tp, nv, cp, ds⟩ ⟨rfl, rfl, rfl, rfl⟩ k
    obtain ⟨h1, h2⟩ := made_shape (q := ⟨.array ([1, 0].map Ex.fin), 1, Ex.fin 1, 2⟩) Toy.rng_unit (.array _ k)
      (by simp) (by intro x hx; rcases List.mem_cons.1 hx with rfl | hx
                    · norm_num
                    · rw [List.mem_singleton.1 hx]; norm_num) (p := 1) rfl (by norm_num) (by norm_num) (by norm_num) (by norm_num)
    refine ⟨h1, fun s k' hs => ?_⟩
    obtain ⟨h3, h4⟩ := h2 s k' hs
    obtain ⟨x, hx⟩ := h4 rfl 0 (by simp) 0 (by decide)
    obtain ⟨y, hy⟩ := h4 rfl 1 (by simp) 0 (by decide)
    have tx := h3.truthful 0 0 x (by simp) hx
    have ty := h3.deceitful 1 0 y (by simp) hy
    obtain ⟨md, l, b1, -, b2, b3, -⟩ := C10_claims_are_cells (α := Ex) ex_one_ne_zero s.data.sv false
    have := h3.data
    rw [b1] at this
    cases this
    refine ⟨⟨0, x, tx, 0, 1, x, y, ?_, hx, hy⟩, l, ?_, b2⟩
    · rintro rfl
      exact ty tx
    · rintro rfl
      have := (b3 0 0 x).2 hx
      simp at this
  cases h : experimentRun Toy.exactEnv [("Voting".toList, .voting)] 2 [3, 4] [] Toy.contestedParams (0, 0) with
  | ok x => exact ⟨x, rfl⟩
  | error e =>
    exfalso
    obtain ⟨e', rfl, i, hi, q, s, k, k', h1, h2, h3⟩ := C92_failures Toy.exactEnv _ 2 [3, 4] Toy.contestedParams (by
      intro i _
      have hq : NthChoice Toy.contestedParams i ⟨.array ([1, 0].map Ex.fin), 1, Ex.fin 1, 2⟩ := ⟨rfl, rfl, rfl, rfl⟩
      exact ⟨_, hq, fun k => (hmade i _ hq k).1⟩) _ _ e h
    obtain ⟨hc, l, hl, hd⟩ := (hmade i q h1 k).2 s k' h2
    rcases h3 with ⟨a, ha, c, hrun⟩ | ⟨-, hno⟩
    · rw [List.mem_singleton] at ha
      subst ha
      obtain ⟨r, hr, -⟩ := C29_voting l false none _ hd hl (Toy.exactEnv.clock c)
      simp only [AnyAlg.run] at hrun
      rw [hr] at hrun
      cases hrun
    · exact hno hc

example : ∃ x : _ × _ × _ × _, experimentRun Toy.exactEnv [("Voting".toList, .voting)] 2 [3, 4] [] Toy.contestedParams (0, 0) = .ok x ∧
    ∀ label ∈ [3, 4], ∃ res accs, x.1.get? label = some res ∧ res.get? "Voting".toList = some accs ∧ accs.length = 2 := by
  obtain ⟨⟨out, p', k', c'⟩, h⟩ := Toy.contested_ok
  refine ⟨_, h, fun label hl => ?_⟩
  obtain ⟨res, accs, h1, h2, h3, -⟩ := C92_unit Toy.exactEnv _ (by decide) 2 (by norm_num) [3, 4] (by decide) _ p' 0 0 k' c' out h
    label hl _ (List.mem_singleton.2 rfl)
  exact ⟨res, accs, h1, h2, h3⟩

theorem Toy.zeros (n k : Nat) : uniformTrust Toy.rng n k = .ok ((List.replicate n (0 : ℝ)).map Ex.fin, k + n) := by
  induction n generalizing k with
  | zero => rfl
  | succ n ih =>
    simp only [uniformTrust, bind, Rand.bind, Rng.sample, ih, pure, List.replicate_succ, List.map_cons]
    rw [show k + 1 + n = k + (n + 1) by omega]
    rfl

/-- With draws of 0 all sources are liars, who agree if there are only two values: the experiment fails. -/
theorem Toy.script_fails : ∃ algs : List (Text × AnyAlg Ex), experimentAlgorithms = .ok algs ∧
    ∃ e, experimentRun ⟨Toy.rng, fun _ _ _ => 0, fun _ _ => Ex.fin 0, 1000001⟩ algs 10 domainSizes [] (newDomainSize Toy.rng)
      (0, 0) = .error e := by
  refine ⟨_, experimentAlgorithms_eq, ?_⟩
  generalize henv : (⟨Toy.rng, fun _ _ _ => 0, fun _ _ => Ex.fin 0, 1000001⟩ : TrialEnv Ex) = env
  have hrng : env.rng = Toy.rng := by rw [← henv]
  cases h : experimentRun env _ 10 domainSizes [] (newDomainSize Toy.rng) (0, 0) with
  | error e => exact ⟨e, rfl⟩
  | ok x =>
    exfalso
    obtain ⟨out, p', k', c'⟩ := x
    obtain ⟨-, ks, -, -, hall⟩ := C92_results env _ (by decide) 10 (by norm_num) domainSizes (by decide) _ _ _ _ _ _ _ h
    obtain ⟨q, res, hq, -, htab⟩ := hall 0 2 rfl
    obtain ⟨s, hs, hent⟩ := htab.entries 0 (by norm_num)
    obtain ⟨_, a, _, _, r, hr, ha⟩ := hent 0 _ rfl
    rw [hrng] at hs
    obtain ⟨tp, nv, cp, ds⟩ := q
    obtain ⟨rfl, rfl, rfl, hd⟩ := hq
    obtain rfl : ds = 2 := by
      have : domainSizes[0]? = some 2 := rfl
      exact Option.some.inj (hd.symm.trans this)
    obtain ⟨-, h2⟩ := made_shape (q := ⟨.draw (uniformTrust Toy.rng 100), 100, Arith.lit 1 10, 2⟩) Toy.rng_unit (k := ks 0 0)
      (.draw _ _ _ _ (Toy.zeros 100 (ks 0 0))) (by simp) (by intro x hx; rw [(List.mem_replicate.1 hx).2]; norm_num)
      (p := 1 / 10) (by simp [Ex.lit_eq]) (by norm_num) (by norm_num) (by norm_num) (by norm_num)
    obtain ⟨hsh, -⟩ := h2 s _ hs
    have hno : ¬ Contested s := by
      rintro ⟨j, v, hj, i, i', x, y, hxy, hx, hy⟩
      have hz : ∀ i x, Holds s.data.sv i j x → x ≠ v ∧ x < 2 := by
        intro i x hx
        have hi : i < 100 := by
          obtain ⟨row, hrow, -⟩ := hx
          have := (List.getElem?_eq_some_iff.1 hrow).1
          rw [hsh.rows] at this
          simpa using this
        refine ⟨?_, hsh.domain i j x hx⟩
        rintro rfl
        exact hsh.deceitful i j x (by rw [List.getElem?_replicate, if_pos hi]) hx hj
      have hv := hsh.truth_domain j v hj
      have h1 := hz i x hx
      have h2 := hz i' y hy
      simp at hv
      omega
    obtain ⟨md, l, b1, -, b2, b3, -, brec, -⟩ := C10_claims_are_cells (α := Ex) ex_one_ne_zero s.data.sv false
    have := hsh.data
    rw [b1] at this
    cases this
    have := fun pick => (C14_runs l false none _ b2 _ _ _ r hr s.values pick).2 (by
      rintro ⟨⟨j, v⟩, hp, x, y, hxy, hx, hy⟩
      rw [mem_allClaims l, mem_claims l, brec] at hx hy
      obtain ⟨⟨i, c⟩, h1, rfl⟩ := hx
      obtain ⟨⟨i', c⟩, h2, rfl⟩ := hy
      obtain ⟨w, hw⟩ := (hsh.truth j).2 (by
        obtain ⟨row, hrow, hc⟩ := (b3 i j x).1 h1
        have := (List.getElem?_eq_some_iff.1 hc).1
        rwa [hsh.cols row (List.mem_of_getElem? hrow)] at this)
      exact hno ⟨j, w, hw, i, i', x, y, hxy, (b3 i j x).1 h1, (b3 i' j y).1 h2⟩)
    rw [this] at ha
    cases ha

example : ∃ e, (∃ i < 19, ∃ q s k k', NthChoice (newDomainSize Toy.rng) i q ∧ MadeWith Toy.rng q k s k' ∧
    (e = TrialErr.py .convergence ∨ e = .py .valueError ∧ ¬ Contested s)) := by
  obtain ⟨algs, ha, e, he⟩ := Toy.script_fails
  obtain ⟨i, hi, q, s, k, k', h1, h2, h3⟩ := C92_script _ Toy.rng_unit (by norm_num)
    (fun k => .ok ((List.replicate 100 (2 : ℝ)).map Ex.fin, k)) (fun k => ⟨_, k, rfl, by simp⟩) algs ha 10 domainSizes _
    (.inl ⟨rfl, rfl⟩) _ e he
  refine ⟨e, i, by simpa [domainSizes] using hi, q, s, k, k', h1, h2, ?_⟩
  rcases h3 with ⟨h, -⟩ | h
  · exact .inl h
  · exact .inr h

/-- Three shapes of a matrix with a gap. -/
theorem Toy.times_ok : ∃ c', performTest (X := Nat) Toy.trialEnv Toy.trialAlgs [[some 1, none], [some 2, some 3]]
    [(1, 2), (2, 1), (2, 2)] [] 0 = .ok ([("Voting".toList, [2, 2, 2]), ("again".toList, [2, 2, 2])], c') :=
  ⟨6, by decide +kernel⟩

example := fun c' h => C93_times Toy.one_ne_zero Toy.trialEnv Toy.trialAlgs (by decide)
  [[some 1, none], [some 2, some 3]] [(1, 2), (2, 1), (2, 2)] (by simp) 0 c' _
  (h : performTest (X := Nat) Toy.trialEnv Toy.trialAlgs [[some 1, none], [some 2, some 3]]
    [(1, 2), (2, 1), (2, 2)] [] 0 = .ok ([("Voting".toList, [2, 2, 2]), ("again".toList, [2, 2, 2])], c'))

/-- **C92.** The experiments of the script repeat ten times: every algorithm has ten numbers for every label. -/
theorem C92_ten_repetitions (env : TrialEnv α) (algs : List (Text × AnyAlg α)) (hn : (algs.map Prod.fst).Nodup)
    (labels : List L) (hl : labels.Nodup) (p p' : SynthParams α) (k c k' c' : Nat)
    (out : Dict L (Dict Text (List α)))
    (h : experimentRun env algs experimentReps labels [] p (k, c) = .ok (out, p', k', c')) :
    ∀ label ∈ labels, ∀ q ∈ algs, ∃ res accs, out.get? label = some res ∧ res.get? q.1 = some accs ∧
      accs.length = 10 := by
  obtain ⟨-, ks, -, -, hall⟩ := C92_results env algs hn _ (by decide) labels hl p p' k c k' c' out h
  intro label hlab q hq
  obtain ⟨i, hi⟩ := List.mem_iff_getElem?.1 hlab
  obtain ⟨ch, res, -, hres, htab⟩ := hall i label hi
  obtain ⟨accs, ha, hlen⟩ := htab.full q hq
  exact ⟨res, accs, hres, ha, hlen⟩

/-- **C92.** A function for the trust values that raises `TypeError` itself is taken for a value that cannot be called, and
given to `SyntheticData` as it is: the experiment raises `AttributeError`. -/
theorem C92_type_error (env : TrialEnv α) (algs : List (Text × AnyAlg α)) (reps : Nat) (label : L) (labels : List L)
    (p : SynthParams α) (q : SynthChoice α) (hq : NthChoice p 0 q) (f : Rand (Vec α)) (hf : q.trust = .draw f) (k c : Nat)
    (he : f k = .error .typeError) :
    experimentRun env algs (reps + 1) (label :: labels) [] p (k, c) = .error (.py .attributeError) := by
  cases hp : p.next with
  | none =>
    exfalso
    obtain ⟨a, b, c, d⟩ := hq
    have key : ∀ {β : Type} {s : Supply β} {b : β}, Nth s 0 b → ∃ x, s.next = some x := by
      intro β s b hb
      rcases h : s.next with _ | x
      · exact absurd ⟨b, hb⟩ (Supply.next_none.1 h)
      · exact ⟨x, rfl⟩
    obtain ⟨x1, h1⟩ := key a
    obtain ⟨x2, h2⟩ := key b
    obtain ⟨x3, h3⟩ := key c
    obtain ⟨x4, h4⟩ := key d
    simp [SynthParams.next, h1, h2, h3, h4] at hp
  | some x =>
    obtain ⟨q', p'⟩ := x
    obtain rfl := nthChoice_unique (SynthParams.next_some hp).1 hq
    unfold experimentRun
    simp only [hp]
    unfold trialReps trialData
    simp only [hf, callTrust, he]

end TD
