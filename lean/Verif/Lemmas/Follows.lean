import Verif.Lemmas.SameIterations
/-!
# Runs with a convergence iterator in double precision whose trust scores stay close to given ones
-/

namespace TD
open Spec Double
attribute [-instance] instBEqProd
variable {S V X : Type} [DecidableEq S] [DecidableEq V] [DecidableEq X] {ω : Platform}

/-- In the first `K` iterations the trust scores differ by at most `ε` from `x 0`, `x 1`, ... -/
structure Follows (c : AlgCfg (FP (Rounding.binary64 ω))) (l : List (S × V × X)) (f : Option (V → X → X → Option (FP (Rounding.binary64 ω)))) (x : Nat → S → ℝ) (ε : ℝ) (K : Nat)
    (P : Nat → Vec (FP (Rounding.binary64 ω)) → Prop) : Prop where
  start : ∃ t b, c.init (matsOf l f) = .ok (t, b) ∧ P 0 t
  near : ∀ n ≤ K, ∀ t, P n t → TrustNear ω l ε (x n) t
  next : ∀ n < K, ∀ t b, P n t → ∃ s, c.kind.body (matsOf l f) t b = .ok (some s) ∧ P (n + 1) s.trust ∧
    (s.cmp1 = t ∧ s.cmp2 = s.trust ∨ s.cmp1 = s.trust ∧ s.cmp2 = t)
  goes : ∀ n ≤ K, ∀ t b, P n t → c.kind.body (matsOf l f) t b ≠ .ok none
  fin : ∀ t b, c.finish t b = .ok (t, b)

namespace Follows
variable {c : AlgCfg (FP (Rounding.binary64 ω))} {l : List (S × V × X)} {f : Option (V → X → X → Option (FP (Rounding.binary64 ω)))} {x : Nat → S → ℝ} {ε : ℝ} {K : Nat}
  {P : Nat → Vec (FP (Rounding.binary64 ω)) → Prop}

theorem chain (H : Follows c l f x ε K P) {st st' : IterState (FP (Rounding.binary64 ω))} {t b t' b' : Vec (FP (Rounding.binary64 ω))} {n : Nat} {L : List (LogEntry (FP (Rounding.binary64 ω)))}
    (h : Steps c.iterator (c.kind.body (matsOf l f)) st t b n st' t' b' L) : ∀ m, m + n ≤ K → P m t → P (m + n) t' := by
  induction h with
  | refl => exact fun m _ h => h
  | cons hfin hbody hcmp hrest ih =>
    intro m hm hP
    obtain ⟨s, h1, h2, -⟩ := H.next m (by omega) _ _ hP
    rw [h1] at hbody
    cases hbody
    have := ih (m + 1) (by omega) h2
    rwa [Nat.add_assoc, Nat.add_comm 1] at this

theorem pred (H : Follows c l f x ε K P) {t0 b0 : Vec (FP (Rounding.binary64 ω))} (hi : c.init (matsOf l f) = .ok (t0, b0)) {st st' : IterState (FP (Rounding.binary64 ω))} {t b : Vec (FP (Rounding.binary64 ω))}
    {n : Nat} {L : List (LogEntry (FP (Rounding.binary64 ω)))} (h : Steps c.iterator (c.kind.body (matsOf l f)) st t0 b0 n st' t b L) (hn : n ≤ K) : P n t := by
  obtain ⟨t1, b1, h1, h2⟩ := H.start
  rw [hi] at h1
  cases h1
  simpa using H.chain h 0 (by omega) h2

variable {m : Measure} {lim : Int}

/-- The computed distances of consecutive trust scores are wrong by at most `η`. -/
def Dists (l : List (S × V × X)) (x : Nat → S → ℝ) (K : Nat) (P : Nat → Vec (FP (Rounding.binary64 ω)) → Prop) (m : Measure) (η : ℝ) : Prop :=
  ∀ n < K, ∀ t t', P n t → P (n + 1) t' →
    ∃ y, getDistance (some m) t t' = .ok (FP.fin y) ∧ |y - distance m (allSources l) (x n) (x (n + 1))| ≤ η

variable {η : ℝ}

/-- What the iterator remembers after `n` iterations. -/
theorem dist (H : Follows c l f x ε K P) (hm : Dists l x K P m η) {th : (FP (Rounding.binary64 ω))}
    (hc : c.iterator = .conv (some m) th lim) {t0 b0 : Vec (FP (Rounding.binary64 ω))} (hi : c.init (matsOf l f) = .ok (t0, b0)) {n : Nat}
    {st' : IterState (FP (Rounding.binary64 ω))} {t b : Vec (FP (Rounding.binary64 ω))} {L : List (LogEntry (FP (Rounding.binary64 ω)))}
    (h : Steps c.iterator (c.kind.body (matsOf l f)) {} t0 b0 (n + 1) st' t b L) (hn : n + 1 ≤ K) :
    ∃ y, st'.dist = some (FP.fin y) ∧ |y - distance m (allSources l) (x n) (x (n + 1))| ≤ η := by
  obtain ⟨st2, t2, b2, L2, L3, h1, h2, -⟩ := h.split n (by omega)
  rw [Nat.add_sub_cancel_left] at h2
  cases h2 with
  | cons hf hb hcmp hs =>
    cases hs
    rename_i s
    have p1 := H.pred hi h1 (by omega)
    obtain ⟨y, hy, herr⟩ := hm n (by omega) _ _ p1 (H.pred hi h hn)
    rw [hc] at hcmp
    obtain ⟨y', hy', hd⟩ := Tracks.conv_compare hcmp
    refine ⟨y, ?_, herr⟩
    rw [hd]
    have : getDistance (some m) t2 s.trust = .ok y' := by
      obtain ⟨s', e0, -, e⟩ := H.next n (by omega) _ b2 p1
      rw [hb] at e0
      cases e0
      rcases e with ⟨e1, e2⟩ | ⟨e1, e2⟩
      · rw [e1, e2] at hy'; exact hy'
      · rw [e1, e2, C85_symmetric] at hy'; exact hy'
    rw [hy] at this
    cases this
    rfl

/-- Where a run may end. -/
theorem ended (H : Follows c l f x ε K P) (hm : Dists l x K P m η)
    {th : ℝ} (hc : c.iterator = .conv (some m) (FP.fin th) lim) {fuel : Nat} {st : IterState (FP (Rounding.binary64 ω))} {r}
    (h : c.exec (matsOf l f) fuel st = .ok r) (hn : r.iterations ≤ K) :
    ∃ k, r.iterations = k + 1 ∧ distance m (allSources l) (x k) (x (k + 1)) < th + η ∧
      ∀ j < k, th - η ≤ distance m (allSources l) (x j) (x (j + 1)) := by
  obtain ⟨h0, t0, b0, n, st', t, b, L, hi, -, hs, hst, hf, hit, -⟩ := (exec_ok_iff _ _ _ _ _).1 h
  rw [hit] at hn
  have hfin : c.iterator.finished st' = .ok true := by
    rcases hst with h | ⟨-, h⟩
    · exact h
    · exact absurd h (H.goes n hn _ _ (H.pred hi hs hn))
  cases n with
  | zero =>
    cases hs
    rw [hc] at hfin
    simp only [IterCfg.finished, IterState.below, Bool.false_eq_true, ↓reduceIte] at hfin
    split at hfin <;> cases hfin
  | succ k =>
    refine ⟨k, hit, ?_, fun j hj => ?_⟩
    · obtain ⟨y, hd, herr⟩ := H.dist hm hc hi hs hn
      rw [hc] at hfin
      simp only [IterCfg.finished, IterState.below, hd, FP.lt_fin] at hfin
      split at hfin
      · rename_i hlt
        have := of_decide_eq_true hlt
        linarith [(abs_le.1 herr).1]
      · split at hfin <;> cases hfin
    · obtain ⟨st2, t2, b2, L2, L3, h1, h2, -⟩ := hs.split (j + 1) (by omega)
      obtain ⟨y, hd, herr⟩ := H.dist hm hc hi h1 (by omega : j + 1 ≤ K)
      obtain ⟨i, hi'⟩ : ∃ i, k + 1 - (j + 1) = i + 1 := ⟨k - j - 1, by omega⟩
      rw [hi'] at h2
      cases h2 with
      | cons hf' hb hcmp hs' =>
        rw [hc] at hf'
        simp only [IterCfg.finished, IterState.below, hd, FP.lt_fin] at hf'
        split at hf'
        · cases hf'
        · rename_i hlt
          have := of_decide_eq_false (Bool.eq_false_iff.2 hlt)
          linarith [(abs_le.1 herr).2]

/-- Where a run does end. -/
theorem ends (H : Follows c l f x ε K P) (hl : l ≠ []) (hm : Dists l x K P m η)
    {th : ℝ} (hc : c.iterator = .conv (some m) (FP.fin th) lim) {k : Nat} (hK : k + 1 ≤ K)
    (hd : distance m (allSources l) (x k) (x (k + 1)) < th - η) (hlim : (k : Int) < lim)
    {fuel : Nat} (hfuel : k + 1 < fuel) (st : IterState (FP (Rounding.binary64 ω))) :
    ∃ r, c.exec (matsOf l f) fuel st = .ok r ∧ r.iterations ≤ k + 1 := by
  obtain ⟨t0, b0, hi, -⟩ := H.start
  have h0 : (matsOf l f).numClaims ≠ 0 := fun e => hl ((numClaims_zero l f).1 e)
  have done : ∀ n st' t b L, Steps c.iterator (c.kind.body (matsOf l f)) {} t0 b0 n st' t b L →
      n ≤ k + 1 → c.iterator.finished st' = .ok true → ∃ r, c.exec (matsOf l f) fuel st = .ok r ∧ r.iterations ≤ k + 1 := by
    intro n st' t b L hs hn hf
    refine ⟨⟨t, b, n, initLog c t0 b0 ++ L⟩, (exec_ok_iff _ _ _ _ _).2 ?_, hn⟩
    exact ⟨h0, _, b0, n, st', t, b, L, hi, by omega, hs, .inl hf, H.fin t b, rfl, rfl⟩
  have prog : ∀ n ≤ k + 1, (∃ r, c.exec (matsOf l f) fuel st = .ok r ∧ r.iterations ≤ k + 1) ∨
      ∃ st' t b L, Steps c.iterator (c.kind.body (matsOf l f)) {} t0 b0 n st' t b L := by
    intro n
    induction n with
    | zero => exact fun _ => .inr ⟨_, _, _, _, .refl _ _ _⟩
    | succ n ih =>
      intro hn
      rcases ih (by omega) with h | ⟨st', t, b, L, hs⟩
      · exact .inl h
      · cases hf : c.iterator.finished st' with
        | error e =>
          exfalso
          rw [hc] at hf
          have hcnt : st'.itCount = n := by have := hs.itCount; simpa using this
          simp only [IterCfg.finished, hcnt] at hf
          split at hf
          · cases hf
          · split at hf
            · omega
            · cases hf
        | ok B =>
          cases B with
          | true => exact .inl (done _ _ _ _ _ hs (by omega) hf)
          | false =>
            have p1 := H.pred hi hs (by omega)
            obtain ⟨s, hb, p2, e⟩ := H.next n (by omega) _ b p1
            obtain ⟨y, hy, -⟩ := hm n (by omega) _ _ p1 p2
            have hcmp : getDistance (some m) s.cmp1 s.cmp2 = .ok (FP.fin y) := by
              rcases e with ⟨e1, e2⟩ | ⟨e1, e2⟩
              · rw [e1, e2, hy]
              · rw [e1, e2, C85_symmetric, hy]
            obtain ⟨st'', hst''⟩ : ∃ st'', c.iterator.compare st' s.cmp1 s.cmp2 = .ok st'' := by
              rw [hc]
              simp only [IterCfg.compare, bind, Except.bind, hcmp]
              exact ⟨_, rfl⟩
            exact .inr ⟨_, _, _, _, hs.append (.cons hf hb hst'' (.refl _ _ _))⟩
  rcases prog (k + 1) le_rfl with h | ⟨st', t, b, L, hs⟩
  · exact h
  · refine done _ _ _ _ _ hs le_rfl ?_
    obtain ⟨y, hy, herr⟩ := H.dist hm hc hi hs hK
    rw [hc]
    simp only [IterCfg.finished, IterState.below, hy, FP.lt_fin]
    rw [if_pos]
    exact decide_eq_true (by linarith [(abs_le.1 herr).2])

/-- The iterations of a run with rounding and of an exact run. -/
theorem same (H : Follows c l f x ε K P) (hl : l ≠ []) (hm : Dists l x K P m η)
    {th : ℝ} (hc : c.iterator = .conv (some m) (FP.fin th) lim) {N : Nat} (hK : N + 1 ≤ K)
    (hlast : distance m (allSources l) (x N) (x (N + 1)) < th) (hbef : ∀ j < N, th ≤ distance m (allSources l) (x j) (x (j + 1)))
    (hgap : ∀ j ≤ N, η < |distance m (allSources l) (x j) (x (j + 1)) - th|)
    (hlim : (N : Int) < lim) {fuel : Nat} (hfuel : N + 1 < fuel) (st : IterState (FP (Rounding.binary64 ω))) :
    ∃ r, c.exec (matsOf l f) fuel st = .ok r ∧ r.iterations = N + 1 := by
  have g1 := hgap N le_rfl
  rw [abs_of_neg (by linarith)] at g1
  obtain ⟨r, hr1, hle⟩ := H.ends hl hm hc hK (by linarith) hlim hfuel st
  obtain ⟨k, hk, h1, -⟩ := H.ended hm hc hr1 (by omega)
  refine ⟨r, hr1, ?_⟩
  by_contra hne
  have hkN : k < N := by omega
  have g2 := hgap k hkN.le
  have g3 := hbef k hkN
  rw [abs_of_nonneg (by linarith)] at g2
  linarith

end Follows

end TD
