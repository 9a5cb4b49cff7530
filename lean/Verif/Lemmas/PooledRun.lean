import Verif.Lemmas.PooledBounds
import Verif.Props.Range
/-! The loop body of PooledInvestment on a dataset of four claims, in two orders. -/

namespace TD
open Spec

variable {ω : Platform}

/-- Source 0 is alone with its claim on variable 0; on variable 1, sources 0 and 2 claim 1 and source 1 claims 0. -/
abbrev poolTriples : List (Nat × Nat × Nat) := [(0, 0, 0), (0, 1, 1), (1, 1, 0), (2, 1, 1)]

/-- The same claims in another order. -/
abbrev poolTriples' : List (Nat × Nat × Nat) := [(1, 1, 0), (0, 1, 1), (0, 0, 0), (2, 1, 1)]

section
variable {R : Rounding}

theorem fnum_add_comm (x y : FNum) : FNum.add R x y = FNum.add R y x := by
  cases x <;> cases y <;> simp [FNum.add, add_comm]

theorem congr3' {a b c a' b' c' : FP R} (h1 : a = a') (h2 : b = b') (h3 : c = c') : v3 a b c = v3 a' b' c' := by
  subst h1 h2 h3; rfl

theorem above_nr {x : FP R} (h : Above x) : NR R x := by
  obtain ⟨u, rfl, r, h⟩ := h
  exact .fin u h.le r

theorem above_ne {x : FP R} (h : Above x) : FNum.eq x (.fin 0) = false := by
  obtain ⟨u, rfl, r, h⟩ := h
  refine decide_eq_false fun h' => h.ne' ?_
  simpa [FP.fin, FNum.toEReal] using h'

/-- What the body does once the scores before scaling are known. -/
noncomputable def scaled3 (T B old : Vec (FP R)) : Except PyErr (Option (Step (FP R))) := do
  let t ← normalise T
  let b ← normalise B
  return some ⟨t, old, t, b⟩

variable {g : FP R} {p : PoolState R}

theorem pool_body (f2 : R.rnd 2 = .fin 2) (fh : R.rnd (1 / 2) = .fin (1 / 2)) (hg : ∀ x, NR R x → NR R (FNum.pow R x g))
    (h1 : Above (fadd R (FP.fin (1 / 2)) p.t2)) (ht1 : Above p.t1) (ht2 : NR R p.t2) (hb0 : NR R p.b0)
    (hb1 : NR R p.b1) (hb2 : NR R p.b2) :
    pooledBody g (matsOf poolTriples none) (v3 (FP.fin 1) p.t1 p.t2) (v3 p.b0 p.b1 p.b2) =
      scaled3 (v3 p.n0 p.n1 p.n2) (v3 (p.c0 g) (p.c1 g) (p.c2 g)) (v3 (FP.fin 1) p.t1 p.t2) := by
  have one : NR R (.fin 1) := .fin 1 zero_le_one R.one
  have two : NR R (.fin 2) := .fin 2 (by norm_num) f2
  have half : NR R (.fin (1 / 2)) := .fin (1 / 2) (by norm_num) fh
  have t1 := above_nr ht1
  have r0 : R.rnd (0 : Nat) = .fin 0 := by rw [Nat.cast_zero]; exact R.zero
  have r1 : R.rnd (1 : Nat) = .fin 1 := by rw [Nat.cast_one]; exact R.one
  have m11 : FNum.mul R (.fin 1) (.fin 1) = .fin 1 := nr_one_mul one
  have a01 : FNum.add R (.fin 0) (.fin 1) = .fin 1 := nr_zero_add one
  have a11 : FNum.add R (.fin 1) (.fin 1) = .fin 2 := by
    show R.rnd (1 + 1) = _
    rw [one_add_one_eq_two]; exact f2
  have d12 : FNum.div R (.fin 1) (.fin 2) = .fin (1 / 2) := by
    simp only [FNum.div]; rw [if_neg (by norm_num)]; exact fh
  have d1h : FNum.div R (.fin 1) (.fin (1 / 2)) = .fin 2 := by
    simp only [FNum.div]; rw [if_neg (by norm_num), show (1 : ℝ) / (1 / 2) = 2 by norm_num]; exact f2
  have om : ∀ {x : FNum}, NR R x → FNum.mul R (.fin 1) x = x := nr_one_mul
  have za : ∀ {x : FNum}, NR R x → FNum.add R (.fin 0) x = x := nr_zero_add
  have n0 : NR R p.n0 := nr_mul half.nn (nn_add (nr_mul two.nn hb0.nn).nn (nr_mul (nr_div one.nn (above_nr h1).nn).nn hb1.nn).nn)
  have n1 : NR R p.n1 := nr_mul t1.nn (nr_mul (nr_div one.nn t1.nn).nn hb2.nn).nn
  have n2 : NR R p.n2 := nr_mul ht2.nn (nr_mul (nr_div one.nn (above_nr h1).nn).nn hb1.nn).nn
  have h0 : NR R p.h0 := nr_div n0.nn two.nn
  have hh1 : NR R p.h1 := nr_add h0.nn n2.nn
  have cc : claimCounts (matsOf poolTriples none) = v3 (R := R) (FP.fin 2) (FP.fin 1) (FP.fin 1) := by
    have e : FNum.add R (R.rnd (0 : Nat)) (FNum.mul R (R.rnd (1 : Nat)) (R.rnd (1 : Nat))) = .fin 1 := by
      rw [r0, r1, m11, a01]
    have e2 : FNum.add R (FNum.add R (R.rnd (0 : Nat)) (FNum.mul R (R.rnd (1 : Nat)) (R.rnd (1 : Nat))))
        (FNum.mul R (R.rnd (1 : Nat)) (R.rnd (1 : Nat))) = .fin 2 := by
      rw [r0, r1, m11, a01, a11]
    exact congr3' e2 e e
  have scT : ∀ a b c : FP R, NR R a → NR R b → NR R c →
      (matsOf poolTriples none : Mats (FP R)).sc.T.mulVec (v3 a b c) = v3 a (fadd R a c) b := by
    intro a b c ha hb hc
    have e : ∀ a : FNum, NR R a → FNum.add R (R.rnd (0 : Nat)) (FNum.mul R (R.rnd (1 : Nat)) a) = a := by
      intro a ha
      rw [r0, r1, om ha, za ha]
    have e2 : FNum.add R (FNum.add R (R.rnd (0 : Nat)) (FNum.mul R (R.rnd (1 : Nat)) a)) (FNum.mul R (R.rnd (1 : Nat)) c)
        = FNum.add R a c := by
      rw [r0, r1, om ha, om hc, za ha]
    exact congr3' (e a ha) e2 (e b hb)
  have hup : updateTrust (matsOf poolTriples none) (v3 (FP.fin 1) p.t1 p.t2) (v3 p.b0 p.b1 p.b2) =
      some (v3 p.n0 p.n1 p.n2) := by
    unfold updateTrust
    have hdiv : vzip Arith.div (v3 (FP.fin 1) p.t1 p.t2) (claimCounts (matsOf poolTriples none)) =
        v3 (FP.fin (1 / 2)) p.t1 p.t2 := by
      rw [cc]
      exact congr3' d12 (nr_div_one t1) (nr_div_one ht2)
    rw [hdiv]
    simp only
    rw [scT (FP.fin (1 / 2)) _ _ half t1 ht2, if_neg]
    · have i1 := nr_div (R := R) one.nn (above_nr h1).nn
      have i2 := nr_div (R := R) one.nn t1.nn
      have e0 : FNum.mul R (.fin (1 / 2)) (FNum.add R (FNum.add R (R.rnd (0 : Nat))
          (FNum.mul R (FNum.mul R (R.rnd (1 : Nat)) (FNum.div R (R.rnd (1 : Nat)) (.fin (1 / 2)))) p.b0))
          (FNum.mul R (FNum.mul R (R.rnd (1 : Nat)) (FNum.div R (R.rnd (1 : Nat)) (fadd R (FP.fin (1 / 2)) p.t2))) p.b1)) =
          p.n0 := by
        rw [r0, r1, d1h, om two, om i1, za (nr_mul two.nn hb0.nn)]
        rfl
      have e1 : FNum.mul R p.t1 (FNum.add R (R.rnd (0 : Nat))
          (FNum.mul R (FNum.mul R (R.rnd (1 : Nat)) (FNum.div R (R.rnd (1 : Nat)) p.t1)) p.b2)) = p.n1 := by
        rw [r0, r1, om i2, za (nr_mul i2.nn hb2.nn)]
        rfl
      have e2 : FNum.mul R p.t2 (FNum.add R (R.rnd (0 : Nat))
          (FNum.mul R (FNum.mul R (R.rnd (1 : Nat)) (FNum.div R (R.rnd (1 : Nat)) (fadd R (FP.fin (1 / 2)) p.t2))) p.b1)) =
          p.n2 := by
        rw [r0, r1, om i1, za (nr_mul i1.nn hb1.nn)]
        rfl
      exact congrArg some (congr3' e0 e1 e2)
    · show ¬ (FNum.eq (.fin (1 / 2)) (R.rnd (0 : Nat)) || (FNum.eq (fadd R (FP.fin (1 / 2)) p.t2) (R.rnd (0 : Nat)) ||
        (FNum.eq p.t1 (R.rnd (0 : Nat)) || false))) = true
      have hq : FNum.eq (.fin (1 / 2)) (.fin 0) = false := above_ne (R := R) ⟨1 / 2, rfl, fh, by norm_num⟩
      rw [r0, hq, above_ne h1, above_ne ht1]
      simp
  have hbase : (matsOf poolTriples none : Mats (FP R)).sc.T.mulVec
      (vzip Arith.div (v3 p.n0 p.n1 p.n2) (claimCounts (matsOf poolTriples none))) = v3 p.h0 p.h1 p.n1 := by
    have hdiv : vzip Arith.div (v3 p.n0 p.n1 p.n2) (claimCounts (matsOf poolTriples none)) = v3 p.h0 p.n1 p.n2 := by
      rw [cc]
      exact congr3' rfl (nr_div_one n1) (nr_div_one n2)
    rw [hdiv, scT _ _ _ h0 n1 n2]
    rfl
  have hmx : ∀ a b c : FP R, NR R a → NR R b → NR R c →
      (matsOf poolTriples none : Mats (FP R)).mutEx.mulVec (v3 a b c) = v3 a (fadd R b c) (fadd R b c) := by
    intro a b c ha hb hc
    have e : FNum.add R (R.rnd (0 : Nat)) (FNum.mul R (R.rnd (1 : Nat)) a) = a := by rw [r0, r1, om ha, za ha]
    have e2 : FNum.add R (FNum.add R (R.rnd (0 : Nat)) (FNum.mul R (R.rnd (1 : Nat)) b)) (FNum.mul R (R.rnd (1 : Nat)) c)
        = FNum.add R b c := by
      rw [r0, r1, om hb, om hc, za hb]
    exact congr3' e e2 e2
  unfold pooledBody
  rw [hup]
  simp only
  rw [hbase]
  have hpow : (v3 p.h0 p.h1 p.n1).map (fun z => Arith.pow z g) =
      v3 (FNum.pow R p.h0 g) (FNum.pow R p.h1 g) (FNum.pow R p.n1 g) := rfl
  rw [hpow, hmx _ _ _ (hg _ h0) (hg _ hh1) (hg _ n1)]
  rfl

/-- The same in the other order. -/
theorem pool_body' (f2 : R.rnd 2 = .fin 2) (fh : R.rnd (1 / 2) = .fin (1 / 2)) (hg : ∀ x, NR R x → NR R (FNum.pow R x g))
    (h1 : Above (fadd R (FP.fin (1 / 2)) p.t2)) (ht1 : Above p.t1) (ht2 : NR R p.t2) (hb0 : NR R p.b0)
    (hb1 : NR R p.b1) (hb2 : NR R p.b2) :
    pooledBody g (matsOf poolTriples' none) (v3 p.t1 (FP.fin 1) p.t2) (v3 p.b2 p.b1 p.b0) =
      scaled3 (v3 p.n1 p.n0 p.n2) (v3 (p.c2 g) (p.c1 g) (p.c0 g)) (v3 p.t1 (FP.fin 1) p.t2) := by
  have one : NR R (.fin 1) := .fin 1 zero_le_one R.one
  have two : NR R (.fin 2) := .fin 2 (by norm_num) f2
  have half : NR R (.fin (1 / 2)) := .fin (1 / 2) (by norm_num) fh
  have t1 := above_nr ht1
  have r0 : R.rnd (0 : Nat) = .fin 0 := by rw [Nat.cast_zero]; exact R.zero
  have r1 : R.rnd (1 : Nat) = .fin 1 := by rw [Nat.cast_one]; exact R.one
  have m11 : FNum.mul R (.fin 1) (.fin 1) = .fin 1 := nr_one_mul one
  have a01 : FNum.add R (.fin 0) (.fin 1) = .fin 1 := nr_zero_add one
  have a11 : FNum.add R (.fin 1) (.fin 1) = .fin 2 := by
    show R.rnd (1 + 1) = _
    rw [one_add_one_eq_two]; exact f2
  have d12 : FNum.div R (.fin 1) (.fin 2) = .fin (1 / 2) := by
    simp only [FNum.div]; rw [if_neg (by norm_num)]; exact fh
  have d1h : FNum.div R (.fin 1) (.fin (1 / 2)) = .fin 2 := by
    simp only [FNum.div]; rw [if_neg (by norm_num), show (1 : ℝ) / (1 / 2) = 2 by norm_num]; exact f2
  have om : ∀ {x : FNum}, NR R x → FNum.mul R (.fin 1) x = x := nr_one_mul
  have za : ∀ {x : FNum}, NR R x → FNum.add R (.fin 0) x = x := nr_zero_add
  have n0 : NR R p.n0 := nr_mul half.nn (nn_add (nr_mul two.nn hb0.nn).nn (nr_mul (nr_div one.nn (above_nr h1).nn).nn hb1.nn).nn)
  have n1 : NR R p.n1 := nr_mul t1.nn (nr_mul (nr_div one.nn t1.nn).nn hb2.nn).nn
  have n2 : NR R p.n2 := nr_mul ht2.nn (nr_mul (nr_div one.nn (above_nr h1).nn).nn hb1.nn).nn
  have h0 : NR R p.h0 := nr_div n0.nn two.nn
  have hh1 : NR R p.h1 := nr_add h0.nn n2.nn
  have cc : claimCounts (matsOf poolTriples' none) = v3 (R := R) (FP.fin 1) (FP.fin 2) (FP.fin 1) := by
    have e : FNum.add R (R.rnd (0 : Nat)) (FNum.mul R (R.rnd (1 : Nat)) (R.rnd (1 : Nat))) = .fin 1 := by
      rw [r0, r1, m11, a01]
    have e2 : FNum.add R (FNum.add R (R.rnd (0 : Nat)) (FNum.mul R (R.rnd (1 : Nat)) (R.rnd (1 : Nat))))
        (FNum.mul R (R.rnd (1 : Nat)) (R.rnd (1 : Nat))) = .fin 2 := by
      rw [r0, r1, m11, a01, a11]
    exact congr3' e e2 e
  have scT : ∀ a b c : FP R, NR R a → NR R b → NR R c →
      (matsOf poolTriples' none : Mats (FP R)).sc.T.mulVec (v3 a b c) = v3 a (fadd R b c) b := by
    intro a b c ha hb hc
    have e : ∀ a : FNum, NR R a → FNum.add R (R.rnd (0 : Nat)) (FNum.mul R (R.rnd (1 : Nat)) a) = a := by
      intro a ha
      rw [r0, r1, om ha, za ha]
    have e2 : FNum.add R (FNum.add R (R.rnd (0 : Nat)) (FNum.mul R (R.rnd (1 : Nat)) b)) (FNum.mul R (R.rnd (1 : Nat)) c)
        = FNum.add R b c := by
      rw [r0, r1, om hb, om hc, za hb]
    exact congr3' (e a ha) e2 (e b hb)
  have hup : updateTrust (matsOf poolTriples' none) (v3 p.t1 (FP.fin 1) p.t2) (v3 p.b2 p.b1 p.b0) =
      some (v3 p.n1 p.n0 p.n2) := by
    unfold updateTrust
    have hdiv : vzip Arith.div (v3 p.t1 (FP.fin 1) p.t2) (claimCounts (matsOf poolTriples' none)) =
        v3 p.t1 (FP.fin (1 / 2)) p.t2 := by
      rw [cc]
      exact congr3' (nr_div_one t1) d12 (nr_div_one ht2)
    rw [hdiv]
    simp only
    rw [scT _ (FP.fin (1 / 2)) _ t1 half ht2, if_neg]
    · have i1 := nr_div (R := R) one.nn (above_nr h1).nn
      have i2 := nr_div (R := R) one.nn t1.nn
      have e0 : FNum.mul R (.fin (1 / 2)) (FNum.add R (FNum.add R (R.rnd (0 : Nat))
          (FNum.mul R (FNum.mul R (R.rnd (1 : Nat)) (FNum.div R (R.rnd (1 : Nat)) (fadd R (FP.fin (1 / 2)) p.t2))) p.b1))
          (FNum.mul R (FNum.mul R (R.rnd (1 : Nat)) (FNum.div R (R.rnd (1 : Nat)) (.fin (1 / 2)))) p.b0)) =
          p.n0 := by
        rw [r0, r1, d1h, om two, om i1, za (nr_mul i1.nn hb1.nn), fnum_add_comm]
        rfl
      have e1 : FNum.mul R p.t1 (FNum.add R (R.rnd (0 : Nat))
          (FNum.mul R (FNum.mul R (R.rnd (1 : Nat)) (FNum.div R (R.rnd (1 : Nat)) p.t1)) p.b2)) = p.n1 := by
        rw [r0, r1, om i2, za (nr_mul i2.nn hb2.nn)]
        rfl
      have e2 : FNum.mul R p.t2 (FNum.add R (R.rnd (0 : Nat))
          (FNum.mul R (FNum.mul R (R.rnd (1 : Nat)) (FNum.div R (R.rnd (1 : Nat)) (fadd R (FP.fin (1 / 2)) p.t2))) p.b1)) =
          p.n2 := by
        rw [r0, r1, om i1, za (nr_mul i1.nn hb1.nn)]
        rfl
      exact congrArg some (congr3' e1 e0 e2)
    · show ¬ (FNum.eq p.t1 (R.rnd (0 : Nat)) || (FNum.eq (fadd R (FP.fin (1 / 2)) p.t2) (R.rnd (0 : Nat)) ||
        (FNum.eq (.fin (1 / 2)) (R.rnd (0 : Nat)) || false))) = true
      have hq : FNum.eq (.fin (1 / 2)) (.fin 0) = false := above_ne (R := R) ⟨1 / 2, rfl, fh, by norm_num⟩
      rw [r0, hq, above_ne h1, above_ne ht1]
      simp
  have hbase : (matsOf poolTriples' none : Mats (FP R)).sc.T.mulVec
      (vzip Arith.div (v3 p.n1 p.n0 p.n2) (claimCounts (matsOf poolTriples' none))) = v3 p.n1 p.h1 p.h0 := by
    have hdiv : vzip Arith.div (v3 p.n1 p.n0 p.n2) (claimCounts (matsOf poolTriples' none)) = v3 p.n1 p.h0 p.n2 := by
      rw [cc]
      exact congr3' (nr_div_one n1) rfl (nr_div_one n2)
    rw [hdiv, scT _ _ _ n1 h0 n2]
    rfl
  have hmx : ∀ a b c : FP R, NR R a → NR R b → NR R c →
      (matsOf poolTriples' none : Mats (FP R)).mutEx.mulVec (v3 a b c) = v3 (fadd R b a) (fadd R b a) c := by
    intro a b c ha hb hc
    have e : FNum.add R (R.rnd (0 : Nat)) (FNum.mul R (R.rnd (1 : Nat)) c) = c := by rw [r0, r1, om hc, za hc]
    have e2 : FNum.add R (FNum.add R (R.rnd (0 : Nat)) (FNum.mul R (R.rnd (1 : Nat)) a)) (FNum.mul R (R.rnd (1 : Nat)) b)
        = FNum.add R b a := by
      rw [r0, r1, om hb, om ha, za ha]; exact fnum_add_comm a b
    exact congr3' e2 e2 e
  unfold pooledBody
  rw [hup]
  simp only
  rw [hbase]
  have hpow : (v3 p.n1 p.h1 p.h0).map (fun z => Arith.pow z g) =
      v3 (FNum.pow R p.n1 g) (FNum.pow R p.h1 g) (FNum.pow R p.h0 g) := rfl
  rw [hpow, hmx _ _ _ (hg _ n1) (hg _ hh1) (hg _ h0)]
  rfl

end
end TD
