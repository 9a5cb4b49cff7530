import Verif.Props.Support
/-!
# C87 for Investment: more support can mean less belief

Two values of a variable are claimed by one source each, and are tied.  A third source joins
one of them; after three iterations with exponent 3 that one has lost belief, and the other
one is believed more.
-/

namespace TD
open Spec Ex
attribute [-instance] instBEqProd

variable {S V X : Type} [DecidableEq S] [DecidableEq V] [DecidableEq X]

/-- Everybody agrees about variable 0; sources 2 and 3 disagree about variable 1. -/
abbrev rivalTriples : List (Nat × Nat × Nat) := [(0, 0, 0), (1, 0, 0), (2, 0, 0), (2, 1, 0), (3, 0, 0), (3, 1, 1)]

/-- Source 4 agrees with source 2. -/
abbrev rivalTriples' : List (Nat × Nat × Nat) :=
  [(0, 0, 0), (1, 0, 0), (2, 0, 0), (2, 1, 0), (3, 0, 0), (3, 1, 1), (4, 1, 0)]

theorem rival_backed : Backed rivalTriples rivalTriples' 4 (1, 0) where
  same := by
    have e1 : recorded rivalTriples' = rivalTriples' := by decide
    have e2 : recorded rivalTriples = rivalTriples := by decide
    intro t
    rw [e1, e2]
    simp [or_assoc]
  new := by decide
  made := by decide

/-- Five trust scores. -/
def quintS (a b c d e : ℝ) : Nat → ℝ
  | 0 => a
  | 1 => b
  | 2 => c
  | 3 => d
  | _ => e

/-- Three beliefs. -/
def tripC (a b c : ℝ) : Nat × Nat → ℝ
  | (0, _) => a
  | (_, 0) => b
  | _ => c

theorem invest_raw {l : List (S × V × X)} (hl : l ≠ []) (g : ℝ) {a b : ℝ} (ha : 0 < a) (hb : 0 < b) {p p' : Scores S V X}
    (hp : Prop2 l a b p p') (hi : PosAll l p) (hi' : PosAll l p') :
    ∃ a b, 0 < a ∧ 0 < b ∧ Prop2 l a b (investStep l g p) (regained l p', fun c => invested l (regained l p') c ^ g) := by
  obtain ⟨a, b, ha, hb, h1, h2⟩ := invest_prop (part_self l) hl hl g ha hb hp hi hi'
  have hr : ∀ s ∈ sources l, 0 < regained l p' s := fun s hs => regained_pos hi' hs
  have t1 : 0 < top (allSources l) (regained l p') := topS_pos hl hr
  have t2 := topC_pos hl fun c hc => Real.rpow_pos_of_pos (invested_pos hr hc) g
  refine ⟨a / _, b / _, div_pos ha t1, div_pos hb t2, fun s hs => ?_, fun c hc => ?_⟩
  · rw [h1 s hs]
    show a * (_ / _) = _
    rw [mul_div_assoc', div_mul_eq_mul_div]
  · rw [h2 c hc]
    show b * (_ / _) = _
    rw [mul_div_assoc', div_mul_eq_mul_div]

/-! ### With source 4 -/

theorem rival'_prop2 {a b : ℝ} {p p' : Scores Nat Nat Nat} : Prop2 rivalTriples' a b p p' ↔
    (p.1 0 = a * p'.1 0 ∧ p.1 1 = a * p'.1 1 ∧ p.1 2 = a * p'.1 2 ∧ p.1 3 = a * p'.1 3 ∧ p.1 4 = a * p'.1 4) ∧
    p.2 (0, 0) = b * p'.2 (0, 0) ∧ p.2 (1, 0) = b * p'.2 (1, 0) ∧ p.2 (1, 1) = b * p'.2 (1, 1) := by
  have e1 : sources rivalTriples' = [0, 1, 2, 3, 4] := by decide
  have e2 : claims rivalTriples' = [(0, 0), (1, 0), (1, 1)] := by decide
  unfold Prop2
  rw [e1, e2]
  simp

theorem rival'_posAll {p : Scores Nat Nat Nat} : PosAll rivalTriples' p ↔
    (0 < p.1 0 ∧ 0 < p.1 1 ∧ 0 < p.1 2 ∧ 0 < p.1 3 ∧ 0 < p.1 4) ∧ 0 < p.2 (0, 0) ∧ 0 < p.2 (1, 0) ∧ 0 < p.2 (1, 1) := by
  have e1 : sources rivalTriples' = [0, 1, 2, 3, 4] := by decide
  have e2 : claims rivalTriples' = [(0, 0), (1, 0), (1, 1)] := by decide
  unfold PosAll
  rw [e1, e2]
  simp

theorem rival'_invested (t : Nat → ℝ) : invested rivalTriples' t (0, 0) = t 0 + (t 1 + (t 2 / 2 + t 3 / 2)) ∧
    invested rivalTriples' t (1, 0) = t 2 / 2 + t 4 ∧ invested rivalTriples' t (1, 1) = t 3 / 2 := by
  have s1 : sourcesOf rivalTriples' (0, 0) = {0, 1, 2, 3} := by decide
  have s2 : sourcesOf rivalTriples' (1, 0) = {2, 4} := by decide
  have s3 : sourcesOf rivalTriples' (1, 1) = {3} := by decide
  have n0 : (claimsOf rivalTriples' 0).card = 1 := by decide
  have n1 : (claimsOf rivalTriples' 1).card = 1 := by decide
  have n2 : (claimsOf rivalTriples' 2).card = 2 := by decide
  have n3 : (claimsOf rivalTriples' 3).card = 2 := by decide
  have n4 : (claimsOf rivalTriples' 4).card = 1 := by decide
  simp [invested, s1, s2, s3, Spec.nClaims, n0, n1, n2, n3, n4]

theorem rival'_regained (p : Scores Nat Nat Nat) {a b c : ℝ} (ha : invested rivalTriples' p.1 (0, 0) = a)
    (hb : invested rivalTriples' p.1 (1, 0) = b) (hc : invested rivalTriples' p.1 (1, 1) = c) :
    regained rivalTriples' p 0 = p.2 (0, 0) * (p.1 0 / a) ∧ regained rivalTriples' p 1 = p.2 (0, 0) * (p.1 1 / a) ∧
    regained rivalTriples' p 2 = p.2 (0, 0) * (p.1 2 / 2 / a) + p.2 (1, 0) * (p.1 2 / 2 / b) ∧
    regained rivalTriples' p 3 = p.2 (0, 0) * (p.1 3 / 2 / a) + p.2 (1, 1) * (p.1 3 / 2 / c) ∧
    regained rivalTriples' p 4 = p.2 (1, 0) * (p.1 4 / b) := by
  have c0 : claimsOf rivalTriples' 0 = {(0, 0)} := by decide
  have c1 : claimsOf rivalTriples' 1 = {(0, 0)} := by decide
  have c2 : claimsOf rivalTriples' 2 = {(0, 0), (1, 0)} := by decide
  have c3 : claimsOf rivalTriples' 3 = {(0, 0), (1, 1)} := by decide
  have c4 : claimsOf rivalTriples' 4 = {(1, 0)} := by decide
  refine ⟨?_, ?_, ?_, ?_, ?_⟩
  · simp [regained, c0, Spec.nClaims, ha]
  · simp [regained, c1, Spec.nClaims, ha]
  · simp [regained, c2, Spec.nClaims, ha, hb]
  · simp [regained, c3, Spec.nClaims, ha, hc]
  · simp [regained, c4, Spec.nClaims, hb]

/-- One step of Investment with exponent 3, up to the normalisation: `a`, `b`, `c` are the investments. -/
theorem rival'_step {p : Scores Nat Nat Nat} {x0 x1 x2 x3 x4 y0 y1 y2 a b c : ℝ}
    (hx : 0 < x0 ∧ 0 < x1 ∧ 0 < x2 ∧ 0 < x3 ∧ 0 < x4) (hy : 0 < y0 ∧ 0 < y1 ∧ 0 < y2) (hi : PosAll rivalTriples' p)
    (h : ∃ a b, 0 < a ∧ 0 < b ∧ Prop2 rivalTriples' a b p (quintS x0 x1 x2 x3 x4, tripC y0 y1 y2))
    (ha : x0 + (x1 + (x2 / 2 + x3 / 2)) = a) (hb : x2 / 2 + x4 = b) (hc : x3 / 2 = c)
    {z0 z1 z2 z3 z4 k : ℝ} (hk : 0 < k) (e0 : k * z0 = y0 * (x0 / a)) (e1 : k * z1 = y0 * (x1 / a))
    (e2 : k * z2 = y0 * (x2 / 2 / a) + y1 * (x2 / 2 / b)) (e3 : k * z3 = y0 * (x3 / 2 / a) + y2 * (x3 / 2 / c))
    (e4 : k * z4 = y1 * (x4 / b)) :
    ∃ a b, 0 < a ∧ 0 < b ∧ Prop2 rivalTriples' a b (investStep rivalTriples' 3 p)
      (quintS z0 z1 z2 z3 z4, tripC ((z0 + (z1 + (z2 / 2 + z3 / 2))) ^ 3) ((z2 / 2 + z4) ^ 3) ((z3 / 2) ^ 3)) := by
  obtain ⟨a₀, b₀, ha₀, hb₀, h⟩ := h
  have hi' : PosAll rivalTriples' (quintS x0 x1 x2 x3 x4, tripC y0 y1 y2) := rival'_posAll.2 ⟨hx, hy⟩
  obtain ⟨a', b', ha', hb', h'⟩ := invest_raw (by simp) 3 ha₀ hb₀ h hi hi'
  obtain ⟨i0, i1, i2⟩ := rival'_invested (quintS x0 x1 x2 x3 x4)
  obtain ⟨g0, g1, g2, g3, g4⟩ := rival'_regained (quintS x0 x1 x2 x3 x4, tripC y0 y1 y2) (i0.trans ha) (i1.trans hb) (i2.trans hc)
  replace g0 := g0.trans e0.symm
  replace g1 := g1.trans e1.symm
  replace g2 := g2.trans e2.symm
  replace g3 := g3.trans e3.symm
  replace g4 := g4.trans e4.symm
  generalize regained rivalTriples' (quintS x0 x1 x2 x3 x4, tripC y0 y1 y2) = t at *
  obtain ⟨j0, j1, j2⟩ := rival'_invested t
  rw [g0, g1, g2, g3] at j0; rw [g2, g4] at j1; rw [g3] at j2
  obtain ⟨⟨s0, s1, s2, s3, s4⟩, c0, c1, c2⟩ := rival'_prop2.1 h'
  have r3 : ∀ u : ℝ, u ^ (3 : ℝ) = u ^ 3 := fun u => by exact_mod_cast Real.rpow_natCast u 3
  simp only [j0, j1, j2, g0, g1, g2, g3, g4, r3] at s0 s1 s2 s3 s4 c0 c1 c2
  refine ⟨a' * k, b' * k ^ 3, by positivity, by positivity, rival'_prop2.2 ⟨⟨?_, ?_, ?_, ?_, ?_⟩, ?_, ?_, ?_⟩⟩
  · rw [s0]; simp only [quintS]; ring
  · rw [s1]; simp only [quintS]; ring
  · rw [s2]; simp only [quintS]; ring
  · rw [s3]; simp only [quintS]; ring
  · rw [s4]; simp only [quintS]; ring
  · rw [c0]; simp only [tripC]; ring
  · rw [c1]; simp only [tripC]; ring
  · rw [c2]; simp only [tripC]; ring

/-! ### Without source 4 -/

theorem rival_prop2 {a b : ℝ} {p p' : Scores Nat Nat Nat} : Prop2 rivalTriples a b p p' ↔
    (p.1 0 = a * p'.1 0 ∧ p.1 1 = a * p'.1 1 ∧ p.1 2 = a * p'.1 2 ∧ p.1 3 = a * p'.1 3) ∧
    p.2 (0, 0) = b * p'.2 (0, 0) ∧ p.2 (1, 0) = b * p'.2 (1, 0) ∧ p.2 (1, 1) = b * p'.2 (1, 1) := by
  have e1 : sources rivalTriples = [0, 1, 2, 3] := by decide
  have e2 : claims rivalTriples = [(0, 0), (1, 0), (1, 1)] := by decide
  unfold Prop2
  rw [e1, e2]
  simp

theorem rival_posAll {p : Scores Nat Nat Nat} : PosAll rivalTriples p ↔
    (0 < p.1 0 ∧ 0 < p.1 1 ∧ 0 < p.1 2 ∧ 0 < p.1 3) ∧ 0 < p.2 (0, 0) ∧ 0 < p.2 (1, 0) ∧ 0 < p.2 (1, 1) := by
  have e1 : sources rivalTriples = [0, 1, 2, 3] := by decide
  have e2 : claims rivalTriples = [(0, 0), (1, 0), (1, 1)] := by decide
  unfold PosAll
  rw [e1, e2]
  simp

theorem rival_invested (t : Nat → ℝ) : invested rivalTriples t (0, 0) = t 0 + (t 1 + (t 2 / 2 + t 3 / 2)) ∧
    invested rivalTriples t (1, 0) = t 2 / 2 ∧ invested rivalTriples t (1, 1) = t 3 / 2 := by
  have s1 : sourcesOf rivalTriples (0, 0) = {0, 1, 2, 3} := by decide
  have s2 : sourcesOf rivalTriples (1, 0) = {2} := by decide
  have s3 : sourcesOf rivalTriples (1, 1) = {3} := by decide
  have n0 : (claimsOf rivalTriples 0).card = 1 := by decide
  have n1 : (claimsOf rivalTriples 1).card = 1 := by decide
  have n2 : (claimsOf rivalTriples 2).card = 2 := by decide
  have n3 : (claimsOf rivalTriples 3).card = 2 := by decide
  simp [invested, s1, s2, s3, Spec.nClaims, n0, n1, n2, n3]

theorem rival_regained (p : Scores Nat Nat Nat) {a b c : ℝ} (ha : invested rivalTriples p.1 (0, 0) = a)
    (hb : invested rivalTriples p.1 (1, 0) = b) (hc : invested rivalTriples p.1 (1, 1) = c) :
    regained rivalTriples p 0 = p.2 (0, 0) * (p.1 0 / a) ∧ regained rivalTriples p 1 = p.2 (0, 0) * (p.1 1 / a) ∧
    regained rivalTriples p 2 = p.2 (0, 0) * (p.1 2 / 2 / a) + p.2 (1, 0) * (p.1 2 / 2 / b) ∧
    regained rivalTriples p 3 = p.2 (0, 0) * (p.1 3 / 2 / a) + p.2 (1, 1) * (p.1 3 / 2 / c) := by
  have c0 : claimsOf rivalTriples 0 = {(0, 0)} := by decide
  have c1 : claimsOf rivalTriples 1 = {(0, 0)} := by decide
  have c2 : claimsOf rivalTriples 2 = {(0, 0), (1, 0)} := by decide
  have c3 : claimsOf rivalTriples 3 = {(0, 0), (1, 1)} := by decide
  refine ⟨?_, ?_, ?_, ?_⟩
  · simp [regained, c0, Spec.nClaims, ha]
  · simp [regained, c1, Spec.nClaims, ha]
  · simp [regained, c2, Spec.nClaims, ha, hb]
  · simp [regained, c3, Spec.nClaims, ha, hc]

theorem rival_step {p : Scores Nat Nat Nat} {x0 x1 x2 x3 y0 y1 y2 a b c : ℝ}
    (hx : 0 < x0 ∧ 0 < x1 ∧ 0 < x2 ∧ 0 < x3) (hy : 0 < y0 ∧ 0 < y1 ∧ 0 < y2) (hi : PosAll rivalTriples p)
    (h : ∃ a b, 0 < a ∧ 0 < b ∧ Prop2 rivalTriples a b p (quadS x0 x1 x2 x3, tripC y0 y1 y2))
    (ha : x0 + (x1 + (x2 / 2 + x3 / 2)) = a) (hb : x2 / 2 = b) (hc : x3 / 2 = c)
    {z0 z1 z2 z3 k : ℝ} (hk : 0 < k) (e0 : k * z0 = y0 * (x0 / a)) (e1 : k * z1 = y0 * (x1 / a))
    (e2 : k * z2 = y0 * (x2 / 2 / a) + y1 * (x2 / 2 / b)) (e3 : k * z3 = y0 * (x3 / 2 / a) + y2 * (x3 / 2 / c)) :
    ∃ a b, 0 < a ∧ 0 < b ∧ Prop2 rivalTriples a b (investStep rivalTriples 3 p)
      (quadS z0 z1 z2 z3, tripC ((z0 + (z1 + (z2 / 2 + z3 / 2))) ^ 3) ((z2 / 2) ^ 3) ((z3 / 2) ^ 3)) := by
  obtain ⟨a₀, b₀, ha₀, hb₀, h⟩ := h
  have hi' : PosAll rivalTriples (quadS x0 x1 x2 x3, tripC y0 y1 y2) := rival_posAll.2 ⟨hx, hy⟩
  obtain ⟨a', b', ha', hb', h'⟩ := invest_raw (by simp) 3 ha₀ hb₀ h hi hi'
  obtain ⟨i0, i1, i2⟩ := rival_invested (quadS x0 x1 x2 x3)
  obtain ⟨g0, g1, g2, g3⟩ := rival_regained (quadS x0 x1 x2 x3, tripC y0 y1 y2) (i0.trans ha) (i1.trans hb) (i2.trans hc)
  replace g0 := g0.trans e0.symm
  replace g1 := g1.trans e1.symm
  replace g2 := g2.trans e2.symm
  replace g3 := g3.trans e3.symm
  generalize regained rivalTriples (quadS x0 x1 x2 x3, tripC y0 y1 y2) = t at *
  obtain ⟨j0, j1, j2⟩ := rival_invested t
  rw [g0, g1, g2, g3] at j0; rw [g2] at j1; rw [g3] at j2
  obtain ⟨⟨s0, s1, s2, s3⟩, c0, c1, c2⟩ := rival_prop2.1 h'
  have r3 : ∀ u : ℝ, u ^ (3 : ℝ) = u ^ 3 := fun u => by exact_mod_cast Real.rpow_natCast u 3
  simp only [j0, j1, j2, g0, g1, g2, g3, r3] at s0 s1 s2 s3 c0 c1 c2
  refine ⟨a' * k, b' * k ^ 3, by positivity, by positivity, rival_prop2.2 ⟨⟨?_, ?_, ?_, ?_⟩, ?_, ?_, ?_⟩⟩
  · rw [s0]; simp only [quadS]; ring
  · rw [s1]; simp only [quadS]; ring
  · rw [s2]; simp only [quadS]; ring
  · rw [s3]; simp only [quadS]; ring
  · rw [c0]; simp only [tripC]; ring
  · rw [c1]; simp only [tripC]; ring
  · rw [c2]; simp only [tripC]; ring

/-- The highest of the normalised beliefs is 1. -/
theorem invest_top_one {l : List (S × V × X)} (hl : l ≠ []) (g : ℝ) {p : Scores S V X} (hi : PosAll l p) :
    (∀ c ∈ allClaims l, (investStep l g p).2 c ≤ 1) ∧ ∃ c ∈ allClaims l, (investStep l g p).2 c = 1 := by
  have t2 := topC_pos hl fun c hc => Real.rpow_pos_of_pos (invested_pos (fun s hs => regained_pos hi hs) hc) g
  refine ⟨fun c hc => scaled_le_one hc t2, ?_⟩
  obtain ⟨c, hc, e⟩ := top_mem' (F := allClaims l) (f := fun c => invested l (regained l p) c ^ g) (allClaims_nonempty hl)
  refine ⟨c, hc, ?_⟩
  show _ / top _ _ = 1
  rw [e] at t2 ⊢
  exact div_self t2.ne'

/-- **C87.** Investment is an exception too: of two tied claims about the same variable, one can lose belief, and
fall behind the other, by gaining a supporter.  With exponent 3, fixed priors and three iterations, `(1, 0)` and
`(1, 1)` are tied without source 4; when source 4 also claims `(1, 0)`, the belief in `(1, 0)` falls and
`(1, 1)` is believed more. -/
theorem C87_investment {g : Option (Nat → Nat → Nat → Option ℝ)} {am am' : Bool} {d d' : Dataset Nat Nat Nat Ex}
    (hd : Dataset.mk' rivalTriples am (finImp g) = .ok d) (hd' : Dataset.mk' rivalTriples' am' (finImp g) = .ok d')
    {it it' : IterCfg Ex} {fuel fuel' : Nat} {clock clock' : Nat → Ex} {st st' : IterState Ex} {r r' : Result Nat Nat Nat Ex}
    (hr : AlgCfg.run ⟨.investment (fin 3), it, some .fixed⟩ d fuel clock st = .ok r) (hi : r.iterations = some 3)
    (hr' : AlgCfg.run ⟨.investment (fin 3), it', some .fixed⟩ d' fuel' clock' st' = .ok r') (hi' : r'.iterations = some 3) :
    ∃ b b₀ b₁ : ℝ, BeliefIn r (1, 0) b ∧ BeliefIn r (1, 1) b ∧ BeliefIn r' (1, 0) b₀ ∧ BeliefIn r' (1, 1) b₁ ∧
      b₀ < b ∧ b < b₁ := by
  obtain rfl := mk'_ex hd
  obtain rfl := mk'_ex hd'
  have H := invest_implements (l := rivalTriples) (finImp g) (by simp) it .fixed 3
  have H' := invest_implements (l := rivalTriples') (finImp g) (by simp) it' .fixed 3
  obtain ⟨n, e, rep⟩ := H.run_reports (by simp) hr
  obtain ⟨n', e', rep'⟩ := H'.run_reports (by simp) hr'
  rw [hi] at e; cases e
  rw [hi'] at e'; cases e'
  have hI := H.inv_iterate
  have hI' := H'.inv_iterate
  have k0 : ∃ a b, 0 < a ∧ 0 < b ∧ Prop2 rivalTriples a b ((fun _ => 1), priorOf rivalTriples .fixed)
      (quadS 1 1 1 1, tripC 1 1 1) :=
    ⟨1, 1 / 2, by norm_num, by norm_num, rival_prop2.2 (by simp [quadS, tripC, priorOf, priorFixed])⟩
  have k1 := rival_step (a := 3) (b := 1 / 2) (c := 1 / 2) (z0 := 4) (z1 := 4) (z2 := 14) (z3 := 14) (k := 1 / 12)
    (by norm_num) (by norm_num) (hI 0) k0 (by norm_num) (by norm_num) (by norm_num) (by norm_num)
    (by norm_num) (by norm_num) (by norm_num) (by norm_num)
  have k2 := rival_step (a := 22) (b := 7) (c := 7) (z0 := 1936) (z1 := 1936) (z2 := 3731) (z3 := 3731) (k := 1)
    (by norm_num) (by norm_num) (hI 1) k1 (by norm_num) (by norm_num) (by norm_num) (by norm_num)
    (by norm_num) (by norm_num) (by norm_num) (by norm_num)
  obtain ⟨a, b, ha, hb, k3⟩ := rival_step (k := 1) (by norm_num) (by norm_num) (hI 2) k2 rfl rfl rfl one_pos
    (one_mul _) (one_mul _) (one_mul _) (one_mul _)
  have m0 : ∃ a b, 0 < a ∧ 0 < b ∧ Prop2 rivalTriples' a b ((fun _ => 1), priorOf rivalTriples' .fixed)
      (quintS 1 1 1 1 1, tripC 1 1 1) :=
    ⟨1, 1 / 2, by norm_num, by norm_num, rival'_prop2.2 (by simp [quintS, tripC, priorOf, priorFixed])⟩
  have m1 := rival'_step (a := 3) (b := 3 / 2) (c := 1 / 2) (z0 := 4) (z1 := 4) (z2 := 6) (z3 := 14) (z4 := 8) (k := 1 / 12)
    (by norm_num) (by norm_num) (hI' 0) m0 (by norm_num) (by norm_num) (by norm_num) (by norm_num)
    (by norm_num) (by norm_num) (by norm_num) (by norm_num) (by norm_num)
  have m2 := rival'_step (a := 18) (b := 11) (c := 7) (z0 := 1296) (z1 := 1296) (z2 := 1335) (z3 := 2611) (z4 := 968) (k := 1)
    (by norm_num) (by norm_num) (hI' 1) m1 (by norm_num) (by norm_num) (by norm_num) (by norm_num)
    (by norm_num) (by norm_num) (by norm_num) (by norm_num) (by norm_num)
  obtain ⟨a', b', ha', hb', m3⟩ := rival'_step (k := 1) (by norm_num) (by norm_num) (hI' 2) m2 rfl rfl rfl one_pos
    (one_mul _) (one_mul _) (one_mul _) (one_mul _) (one_mul _)
  obtain ⟨-, p0, p1, p2⟩ := rival_prop2.1 k3
  obtain ⟨-, q0, q1, q2⟩ := rival'_prop2.1 m3
  simp only [tripC] at p0 p1 p2 q0 q1 q2
  norm_num at p0 p1 p2 q0 q1 q2
  obtain ⟨u, c, hc, ec⟩ := invest_top_one (l := rivalTriples) (by simp) 3 (hI 2)
  obtain ⟨u', c', hc', ec'⟩ := invest_top_one (l := rivalTriples') (by simp) 3 (hI' 2)
  replace u := u (0, 0) (by decide)
  replace u' := u' (0, 0) (by decide)
  have eC : allClaims rivalTriples = {(0, 0), (1, 0), (1, 1)} := by decide
  have eC' : allClaims rivalTriples' = {(0, 0), (1, 0), (1, 1)} := by decide
  have t : (investStep rivalTriples 3 ((investStep rivalTriples 3)^[2] ((fun _ => 1), priorOf rivalTriples .fixed))).2 (0, 0) = 1 := by
    rw [eC] at hc
    simp only [Finset.mem_insert, Finset.mem_singleton] at hc
    rcases hc with rfl | rfl | rfl
    · exact ec
    · replace ec := p1.symm.trans ec
      replace u := p0.symm.trans_le u
      linarith
    · replace ec := p2.symm.trans ec
      replace u := p0.symm.trans_le u
      linarith
  have t' : (investStep rivalTriples' 3 ((investStep rivalTriples' 3)^[2] ((fun _ => 1), priorOf rivalTriples' .fixed))).2 (0, 0) = 1 := by
    rw [eC'] at hc'
    simp only [Finset.mem_insert, Finset.mem_singleton] at hc'
    rcases hc' with rfl | rfl | rfl
    · exact ec'
    · replace ec' := q1.symm.trans ec'
      replace u' := q0.symm.trans_le u'
      linarith
    · replace ec' := q2.symm.trans ec'
      replace u' := q0.symm.trans_le u'
      linarith
  replace t := p0.symm.trans t
  replace t' := q0.symm.trans t'
  refine ⟨_, _, _, (rep.beliefIn (by decide)).2 rfl, (rep.beliefIn (by decide)).2 (p1.trans p2.symm),
    (rep'.beliefIn (by decide)).2 rfl, (rep'.beliefIn (by decide)).2 rfl, ?_, ?_⟩
  · refine lt_of_eq_of_lt q1 (lt_of_lt_of_eq ?_ p1.symm)
    linarith
  · refine lt_of_eq_of_lt p1 (lt_of_lt_of_eq ?_ q2.symm)
    linarith

/-- The two runs of `C87_investment`. -/
example (clock : Nat → Ex) : ∃ (d d' : Dataset Nat Nat Nat Ex) (r r' : Result Nat Nat Nat Ex),
    Dataset.mk' rivalTriples false none = .ok d ∧ Dataset.mk' rivalTriples' false none = .ok d' ∧
    AlgCfg.run ⟨.investment (fin 3), .fixed 3, some .fixed⟩ d 100 clock {} = .ok r ∧
    AlgCfg.run ⟨.investment (fin 3), .fixed 3, some .fixed⟩ d' 100 clock {} = .ok r' ∧
    ∃ b b' : ℝ, BeliefIn r (1, 0) b ∧ BeliefIn r' (1, 0) b' ∧ b' < b := by
  obtain ⟨d, hd⟩ := exists_dataset rivalTriples (by decide)
  obtain ⟨d', hd'⟩ := exists_dataset rivalTriples' (by decide)
  have e := mk'_ex hd
  have e' := mk'_ex hd'
  subst e e'
  obtain ⟨r, h1, h2, -⟩ := (invest_implements (l := rivalTriples) none (by simp) (.fixed 3) .fixed 3).run_fixed
    nofun (by simp) (N := 3) rfl (fuel := 100) (by norm_num) clock {}
  obtain ⟨r', h1', h2', -⟩ := (invest_implements (l := rivalTriples') none (by simp) (.fixed 3) .fixed 3).run_fixed
    nofun (by simp) (N := 3) rfl (fuel := 100) (by norm_num) clock {}
  obtain ⟨b, b₀, b₁, k1, -, k2, -, k3, -⟩ := C87_investment (g := none) hd hd' h1 h2 h1' h2'
  exact ⟨_, _, r, r', hd, hd', h1, h1', b, b₀, k1, k2, k3⟩

end TD
