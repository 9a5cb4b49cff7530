import Verif.Model.Algorithm
import Mathlib.Tactic.Common

namespace TD
variable {α : Type} [Arith α]

/-- `n` passes through the loop, with the log entries they append. -/
inductive Steps (it : IterCfg α) (body : Vec α → Vec α → Except PyErr (Option (Step α))) :
    IterState α → Vec α → Vec α → Nat → IterState α → Vec α → Vec α → List (LogEntry α) → Prop
  | refl (st t b) : Steps it body st t b 0 st t b []
  | cons {st t b s st' n st'' t'' b'' L} :
      it.finished st = .ok false → body t b = .ok (some s) →
      it.compare st s.cmp1 s.cmp2 = .ok st' →
      Steps it body st' s.trust s.belief n st'' t'' b'' L →
      Steps it body st t b (n + 1) st'' t'' b'' (⟨st'.itCount, s.trust, s.belief⟩ :: L)

variable {it : IterCfg α} {body : Vec α → Vec α → Except PyErr (Option (Step α))}

/-- The loop stops normally here. -/
def Stops (it : IterCfg α) (body : Vec α → Vec α → Except PyErr (Option (Step α)))
    (st : IterState α) (t b : Vec α) : Prop :=
  it.finished st = .ok true ∨ (it.finished st = .ok false ∧ body t b = .ok none)

/-- The loop raises `er` here. -/
def Raises (it : IterCfg α) (body : Vec α → Vec α → Except PyErr (Option (Step α)))
    (st : IterState α) (t b : Vec α) (er : PyErr) : Prop :=
  it.finished st = .error er ∨ (it.finished st = .ok false ∧ (body t b = .error er ∨
    ∃ s, body t b = .ok (some s) ∧ it.compare st s.cmp1 s.cmp2 = .error er))

theorem loop_ok_iff (fuel : Nat) (st : IterState α) (t b : Vec α) (log : List (LogEntry α))
    (e : LoopEnd α) :
    loop it body fuel st t b log = .ok e ↔
      ∃ n L, n < fuel ∧ Steps it body st t b n e.st e.trust e.belief L ∧ e.log = log ++ L ∧
        Stops it body e.st e.trust e.belief := by
  induction fuel generalizing st t b log with
  | zero => simp [loop]
  | succ fuel ih =>
    rw [loop]
    cases hf : it.finished st with
    | error er =>
      simp only [bind, Except.bind, reduceCtorEq, false_iff]
      rintro ⟨n, L, -, hs, -, hstop⟩
      cases hs with
      | refl => rcases hstop with h | ⟨h, -⟩ <;> simp [hf] at h
      | cons h => simp [hf] at h
    | ok fin =>
      cases fin with
      | true =>
        simp only [bind, Except.bind, ↓reduceIte, pure, Except.pure, Except.ok.injEq]
        constructor
        · rintro rfl
          exact ⟨0, [], by omega, .refl _ _ _, by simp, .inl hf⟩
        · rintro ⟨n, L, -, hs, hl, -⟩
          cases hs with
          | refl => cases e; simp_all
          | cons h => simp [hf] at h
      | false =>
        simp only [bind, Except.bind, Bool.false_eq_true, ↓reduceIte]
        cases hb : body t b with
        | error er =>
          simp only [reduceCtorEq, false_iff]
          rintro ⟨n, L, -, hs, -, hstop⟩
          cases hs with
          | refl => rcases hstop with h | ⟨-, h⟩ <;> simp_all
          | cons _ h => simp [hb] at h
        | ok o =>
          cases o with
          | none =>
            simp only [pure, Except.pure, Except.ok.injEq]
            constructor
            · rintro rfl
              exact ⟨0, [], by omega, .refl _ _ _, by simp, .inr ⟨hf, hb⟩⟩
            · rintro ⟨n, L, -, hs, hl, -⟩
              cases hs with
              | refl => cases e; simp_all
              | cons _ h => simp [hb] at h
          | some s =>
            simp only
            cases hc : it.compare st s.cmp1 s.cmp2 with
            | error er =>
              simp only [reduceCtorEq, false_iff]
              rintro ⟨n, L, -, hs, -, hstop⟩
              cases hs with
              | refl => rcases hstop with h | ⟨-, h⟩ <;> simp_all
              | cons _ h1 h2 =>
                rw [hb] at h1; simp only [Except.ok.injEq, Option.some.injEq] at h1
                subst h1; simp [hc] at h2
            | ok st' =>
              simp only
              rw [ih]
              constructor
              · rintro ⟨n, L, hn, hs, hl, hstop⟩
                exact ⟨n + 1, _, by omega, .cons hf hb hc hs, by simp [hl], hstop⟩
              · rintro ⟨n, L, hn, hs, hl, hstop⟩
                cases hs with
                | refl => rcases hstop with h | ⟨-, h⟩ <;> simp_all
                | cons _ h1 h2 h3 =>
                  rw [hb] at h1; simp only [Except.ok.injEq, Option.some.injEq] at h1
                  subst h1
                  rw [hc] at h2; simp only [Except.ok.injEq] at h2
                  subst h2
                  exact ⟨_, _, by omega, h3, by simp [hl], hstop⟩

theorem loop_error_iff (fuel : Nat) (st : IterState α) (t b : Vec α) (log : List (LogEntry α))
    (er : PyErr) :
    loop it body fuel st t b log = .error er ↔
      (er = .diverge ∧ ∃ st' t' b' L, Steps it body st t b fuel st' t' b' L) ∨
      ∃ n st' t' b' L, n < fuel ∧ Steps it body st t b n st' t' b' L ∧
        Raises it body st' t' b' er := by
  induction fuel generalizing st t b log with
  | zero =>
    simp only [loop, Except.error.injEq]
    constructor
    · rintro rfl; exact .inl ⟨rfl, _, _, _, _, .refl _ _ _⟩
    · rintro (⟨rfl, _⟩ | ⟨n, _, _, _, _, h, _⟩)
      · rfl
      · omega
  | succ fuel ih =>
    rw [loop]
    have fin0 : ∀ {P : Prop} (er' : PyErr), it.finished st = .error er' →
        ((P ∧ ∃ st' t' b' L, Steps it body st t b (fuel + 1) st' t' b' L) ↔ False) := by
      intro P er' hf
      simp only [iff_false, not_and, not_exists]
      intro _ st' t' b' L hs
      cases hs with
      | cons h => simp [hf] at h
    cases hf : it.finished st with
    | error er' =>
      rw [fin0 er' hf, false_or]
      simp only [bind, Except.bind, Except.error.injEq]
      constructor
      · rintro rfl; exact ⟨0, _, _, _, _, by omega, .refl _ _ _, .inl hf⟩
      · rintro ⟨n, st', t', b', L, -, hs, hr⟩
        cases hs with
        | refl => rcases hr with h | ⟨h, -⟩ <;> simp_all
        | cons h => simp [hf] at h
    | ok fin =>
      cases fin with
      | true =>
        simp only [bind, Except.bind, ↓reduceIte, pure, Except.pure, reduceCtorEq, false_iff, not_or]
        constructor
        · rintro ⟨-, st', t', b', L, hs⟩
          cases hs with
          | cons h => simp [hf] at h
        · rintro ⟨n, st', t', b', L, -, hs, hr⟩
          cases hs with
          | refl => rcases hr with h | ⟨h, -⟩ <;> simp_all
          | cons h => simp [hf] at h
      | false =>
        simp only [bind, Except.bind, Bool.false_eq_true, ↓reduceIte]
        cases hb : body t b with
        | error er' =>
          simp only [Except.error.injEq]
          constructor
          · rintro rfl
            exact .inr ⟨0, _, _, _, _, by omega, .refl _ _ _, .inr ⟨hf, .inl hb⟩⟩
          · rintro (⟨-, st', t', b', L, hs⟩ | ⟨n, st', t', b', L, -, hs, hr⟩)
            · cases hs with
              | cons _ h => simp [hb] at h
            · cases hs with
              | refl => rcases hr with h | ⟨-, h | ⟨s, h, -⟩⟩ <;> simp_all
              | cons _ h => simp [hb] at h
        | ok o =>
          cases o with
          | none =>
            simp only [pure, Except.pure, reduceCtorEq, false_iff, not_or]
            constructor
            · rintro ⟨-, st', t', b', L, hs⟩
              cases hs with
              | cons _ h => simp [hb] at h
            · rintro ⟨n, st', t', b', L, -, hs, hr⟩
              cases hs with
              | refl => rcases hr with h | ⟨-, h | ⟨s, h, -⟩⟩ <;> simp_all
              | cons _ h => simp [hb] at h
          | some s =>
            simp only
            cases hc : it.compare st s.cmp1 s.cmp2 with
            | error er' =>
              simp only [Except.error.injEq]
              constructor
              · rintro rfl
                exact .inr ⟨0, _, _, _, _, by omega, .refl _ _ _, .inr ⟨hf, .inr ⟨s, hb, hc⟩⟩⟩
              · rintro (⟨-, st', t', b', L, hs⟩ | ⟨n, st', t', b', L, -, hs, hr⟩)
                · cases hs with
                  | cons _ h1 h2 =>
                    rw [hb] at h1; simp only [Except.ok.injEq, Option.some.injEq] at h1
                    subst h1; simp [hc] at h2
                · cases hs with
                  | refl => rcases hr with h | ⟨-, h | ⟨s, h, h'⟩⟩ <;> simp_all
                  | cons _ h1 h2 =>
                    rw [hb] at h1; simp only [Except.ok.injEq, Option.some.injEq] at h1
                    subst h1; simp [hc] at h2
            | ok st' =>
              simp only
              rw [ih]
              constructor
              · rintro (⟨rfl, st'', t', b', L, hs⟩ | ⟨n, st'', t', b', L, hn, hs, hr⟩)
                · exact .inl ⟨rfl, _, _, _, _, .cons hf hb hc hs⟩
                · exact .inr ⟨n + 1, _, _, _, _, by omega, .cons hf hb hc hs, hr⟩
              · rintro (⟨rfl, st'', t', b', L, hs⟩ | ⟨n, st'', t', b', L, hn, hs, hr⟩)
                · cases hs with
                  | cons _ h1 h2 h3 =>
                    rw [hb] at h1; simp only [Except.ok.injEq, Option.some.injEq] at h1
                    subst h1
                    rw [hc] at h2; simp only [Except.ok.injEq] at h2
                    subst h2
                    exact .inl ⟨rfl, _, _, _, _, h3⟩
                · cases hs with
                  | refl => rcases hr with h | ⟨-, h | ⟨s, h, h'⟩⟩ <;> simp_all
                  | cons _ h1 h2 h3 =>
                    rw [hb] at h1; simp only [Except.ok.injEq, Option.some.injEq] at h1
                    subst h1
                    rw [hc] at h2; simp only [Except.ok.injEq] at h2
                    subst h2
                    exact .inr ⟨_, _, _, _, _, by omega, h3, hr⟩

/-- Passes are deterministic. -/
theorem Steps.det {st : IterState α} {t b : Vec α} {n : Nat} {st1 t1 b1 L1 st2 t2 b2 L2}
    (h1 : Steps it body st t b n st1 t1 b1 L1) (h2 : Steps it body st t b n st2 t2 b2 L2) :
    st1 = st2 ∧ t1 = t2 ∧ b1 = b2 ∧ L1 = L2 := by
  induction h1 generalizing st2 t2 b2 L2 with
  | refl => cases h2; exact ⟨rfl, rfl, rfl, rfl⟩
  | cons hf hb hc _ ih =>
    cases h2 with
    | cons hf' hb' hc' hs' =>
      rw [hb] at hb'; simp only [Except.ok.injEq, Option.some.injEq] at hb'; subst hb'
      rw [hc] at hc'; simp only [Except.ok.injEq] at hc'; subst hc'
      obtain ⟨a1, a2, a3, a4⟩ := ih hs'
      exact ⟨a1, a2, a3, by rw [a4]⟩

/-- A longer sequence of passes can be split. -/
theorem Steps.split {st : IterState α} {t b : Vec α} {n : Nat} {st1 t1 b1 L1}
    (h1 : Steps it body st t b n st1 t1 b1 L1) (k : Nat) (hk : k ≤ n) :
    ∃ st2 t2 b2 L2 L3, Steps it body st t b k st2 t2 b2 L2 ∧
      Steps it body st2 t2 b2 (n - k) st1 t1 b1 L3 ∧ L1 = L2 ++ L3 := by
  induction h1 generalizing k with
  | refl =>
    obtain rfl : k = 0 := by omega
    exact ⟨_, _, _, _, _, .refl _ _ _, .refl _ _ _, rfl⟩
  | cons hf hb hc hs ih =>
    cases k with
    | zero => exact ⟨_, _, _, _, _, .refl _ _ _, .cons hf hb hc hs, rfl⟩
    | succ k =>
      obtain ⟨st2, t2, b2, L2, L3, h1, h2, rfl⟩ := ih k (by omega)
      refine ⟨_, _, _, _, _, .cons hf hb hc h1, ?_, rfl⟩
      rwa [Nat.add_sub_add_right]

theorem Steps.append {st : IterState α} {t b : Vec α} {n k : Nat} {st1 t1 b1 L1 st2 t2 b2 L2}
    (h1 : Steps it body st t b n st1 t1 b1 L1) (h2 : Steps it body st1 t1 b1 k st2 t2 b2 L2) :
    Steps it body st t b (n + k) st2 t2 b2 (L1 ++ L2) := by
  induction h1 with
  | refl => simpa using h2
  | cons hf hb hc _ ih =>
    have := Steps.cons hf hb hc (ih h2)
    rw [show ∀ m, m + 1 + k = m + k + 1 from fun m => by omega]
    exact this

theorem compare_itCount {c : IterCfg α} {st st' : IterState α} {v w : Vec α}
    (h : c.compare st v w = .ok st') : st'.itCount = st.itCount + 1 := by
  cases c with
  | fixed => simp [IterCfg.compare] at h; subst h; rfl
  | conv m th lim =>
    simp only [IterCfg.compare, bind, Except.bind] at h
    split at h
    · simp at h
    · simp [pure, Except.pure] at h; subst h; rfl
  | ord th =>
    simp only [IterCfg.compare, bind, Except.bind] at h
    split at h
    · simp at h
    · split at h
      · simp at h
      · simp [pure, Except.pure] at h; subst h; rfl

theorem Steps.itCount {st : IterState α} {t b : Vec α} {n : Nat} {st1 t1 b1 L1}
    (h : Steps it body st t b n st1 t1 b1 L1) : st1.itCount = st.itCount + n := by
  induction h with
  | refl => rfl
  | cons _ _ hc _ ih => rw [ih, compare_itCount hc]; omega

theorem Steps.length {st : IterState α} {t b : Vec α} {n : Nat} {st1 t1 b1 L1}
    (h : Steps it body st t b n st1 t1 b1 L1) : L1.length = n := by
  induction h with
  | refl => rfl
  | cons _ _ _ _ ih => simp [ih]

theorem Steps.log_iterations {st : IterState α} {t b : Vec α} {n : Nat} {st1 t1 b1 L1}
    (h : Steps it body st t b n st1 t1 b1 L1) :
    ∀ k e, L1[k]? = some e → e.iterations = st.itCount + k + 1 := by
  induction h with
  | refl => simp
  | cons _ _ hc _ ih =>
    intro k e he
    cases k with
    | zero => simp at he; subst he; simp [compare_itCount hc]
    | succ k =>
      simp only [List.getElem?_cons_succ] at he
      rw [ih k e he, compare_itCount hc]; omega

theorem Steps.last {st : IterState α} {t b : Vec α} {n : Nat} {st1 t1 b1 L1}
    (h : Steps it body st t b n st1 t1 b1 L1) (e0 : LogEntry α)
    (he : e0 = ⟨st.itCount, t, b⟩) :
    (e0 :: L1).getLast? = some ⟨st1.itCount, t1, b1⟩ := by
  induction h generalizing e0 with
  | refl => simp [he]
  | cons _ _ _ _ ih => rw [List.getLast?_cons_cons]; exact ih _ rfl

/-- More fuel does not change a finished run. -/
theorem loop_fuel_mono {fuel fuel' : Nat} (h : fuel ≤ fuel') {st : IterState α} {t b : Vec α}
    {log : List (LogEntry α)}
    (hd : ∀ st' t' b' L, ¬ Steps it body st t b fuel st' t' b' L) :
    loop it body fuel' st t b log = loop it body fuel st t b log := by
  cases hr : loop it body fuel st t b log with
  | ok e =>
    rw [loop_ok_iff] at hr ⊢
    obtain ⟨n, L, hn, hs, hl, hst⟩ := hr
    exact ⟨n, L, by omega, hs, hl, hst⟩
  | error er =>
    rw [loop_error_iff] at hr ⊢
    rcases hr with ⟨-, st', t', b', L, hs⟩ | ⟨n, st', t', b', L, hn, hs, hr⟩
    · exact absurd hs (hd _ _ _ _)
    · exact .inr ⟨n, st', t', b', L, by omega, hs, hr⟩

end TD
