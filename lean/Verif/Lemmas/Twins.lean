import Verif.Lemmas.Run
import Verif.Lemmas.Rel
/-! Equal rows of the matrices give equal scores, whatever the arithmetic. -/

namespace TD
variable {α : Type} [Arith α]

/-- Entries `i` and `j` are equal. -/
def Twin {β : Type} (i j : Nat) (v : List β) : Prop := v[i]? = v[j]?

variable {i j : Nat}

theorem Twin.map {β γ : Type} {v : List β} (h : Twin i j v) (f : β → γ) : Twin i j (v.map f) := by
  unfold Twin at h ⊢
  rw [List.getElem?_map, List.getElem?_map, h]

omit [Arith α] in
theorem Twin.vzip {v w : Vec α} (h : Twin i j v) (h' : Twin i j w) (f : α → α → α) : Twin i j (vzip f v w) := by
  unfold Twin at h h' ⊢
  unfold TD.vzip
  rw [List.getElem?_zipWith, List.getElem?_zipWith, h, h']

theorem Twin.mulVec {M : Mat α} (h : Twin i j M.rows) (v : Vec α) : Twin i j (M.mulVec v) := h.map _

theorem Twin.at {v : Vec α} (h : Twin i j v) : v.at i = v.at j := by
  unfold Vec.at
  rw [List.getD_eq_getElem?_getD, List.getD_eq_getElem?_getD, h]

theorem Twin.scaleCols {M : Mat α} (h : Twin i j M.rows) (x : Vec α) : Twin i j (M.scaleCols x).rows := h.map _

theorem enum_getElem? {β : Type} (v : List β) (i : Nat) : (enum v)[i]? = v[i]?.map fun b => (i, b) := by
  simp [enum, Function.comp_def]

theorem Twin.scaleRows {M : Mat α} (h : Twin i j M.rows) {x : Vec α} (hx : Twin i j x) :
    Twin i j (M.scaleRows x).rows := by
  unfold Twin Mat.scaleRows
  simp only [List.getElem?_map, enum_getElem?, Option.map_map]
  rw [show M.rows[i]? = M.rows[j]? from h]
  congr 1
  funext r
  simp [hx.at]

theorem Twin.normalise {v w : Vec α} (h : Twin i j v) (hw : normalise v = .ok w) : Twin i j w := by
  unfold TD.normalise at hw
  cases hp : pyMax v with
  | error e => rw [hp] at hw; cases hw
  | ok m =>
    rw [hp] at hw
    cases hw
    exact h.map _

theorem Twin.rescale {v w : Vec α} (h : Twin i j v) (hw : rescale v = .ok w) : Twin i j w := by
  unfold TD.rescale at hw
  cases hp : npMax v with
  | error e => rw [hp] at hw; cases hw
  | ok m =>
    rw [hp] at hw
    simp only [bind, Except.bind, pure, Except.pure] at hw
    cases hw
    split
    · exact h.map _
    · exact h

theorem Twin.mapM {β γ : Type} {v : List β} (h : Twin i j v) {g : β → Except PyErr γ} {w : List γ}
    (hw : v.mapM g = .ok w) : Twin i j w := by
  have key : ∀ (v : List β) (w : List γ), v.mapM g = .ok w → ∀ i : Nat, w[i]? = (v[i]?).bind fun b => (g b).toOption := by
    intro v
    induction v with
    | nil => intro w hw i; cases hw; simp
    | cons b v ih =>
      intro w hw i
      rw [List.mapM_cons] at hw
      cases hb : g b with
      | error e => rw [hb] at hw; cases hw
      | ok c =>
        cases hv : v.mapM g with
        | error e => rw [hb, hv] at hw; cases hw
        | ok w' =>
          rw [hb, hv] at hw
          cases hw
          cases i with
          | zero => simp [hb, Except.toOption]
          | succ i => simpa using ih w' hv i
  unfold Twin
  rw [key v w hw, key v w hw, show v[i]? = v[j]? from h]

theorem Twin.replicate {β : Type} {n : Nat} (hi : i < n) (hj : j < n) (x : β) : Twin i j (List.replicate n x) := by
  simp [Twin, hi, hj]

section
variable {m : Mats α} {t b : Vec α}

theorem twin_claimCounts (h : Twin i j m.sc.rows) : Twin i j (claimCounts m) := h.mulVec _

theorem twin_updateTrust (h : Twin i j m.sc.rows) (ht : Twin i j t) {nt : Vec α} (hu : updateTrust m t b = some nt) :
    Twin i j nt := by
  unfold updateTrust at hu
  simp only at hu
  split at hu
  · cases hu
  · cases hu
    exact (ht.vzip (twin_claimCounts h) _).vzip ((h.scaleCols _).mulVec _) _

/-- An iteration gives equal trust to sources with equal rows and equal trust before. -/
theorem twin_trust (h : Twin i j m.sc.rows) (ht : Twin i j t) {k : Kind α} {s : Step α}
    (hs : k.body m t b = .ok (some s)) : Twin i j s.trust := by
  cases k with
  | sums =>
    obtain ⟨a, c, h1, h2, h3⟩ := normalise2_ok (g := fun a b => ⟨t, a, a, b⟩) hs
    simp at h3; subst h3
    exact (h.mulVec _).normalise h1
  | averageLog =>
    obtain ⟨a, c, h1, h2, h3⟩ := normalise2_ok (g := fun a b => ⟨a, t, a, b⟩) hs
    simp at h3; subst h3
    exact (((twin_claimCounts h).map _).vzip (h.mulVec _) _).normalise h1
  | investment g =>
    simp only [Kind.body, investBody] at hs
    cases hu : updateTrust m t b with
    | none => rw [hu] at hs; simp [pure, Except.pure] at hs
    | some nt =>
      rw [hu] at hs
      obtain ⟨a, c, h1, h2, h3⟩ := normalise2_ok (g := fun a b => ⟨a, t, a, b⟩) hs
      simp at h3; subst h3
      exact (twin_updateTrust h ht hu).normalise h1
  | pooledInvestment g =>
    simp only [Kind.body, pooledBody] at hs
    cases hu : updateTrust m t b with
    | none => rw [hu] at hs; simp [pure, Except.pure] at hs
    | some nt =>
      rw [hu] at hs
      obtain ⟨a, c, h1, h2, h3⟩ := normalise2_ok (g := fun a b => ⟨a, t, a, b⟩) hs
      simp at h3; subst h3
      exact (twin_updateTrust h ht hu).normalise h1
  | truthFinder rho gamma t0 =>
    simp only [Kind.body, tfBody] at hs
    cases hl : logTrust t with
    | none => simp [hl] at hs
    | some tau =>
      simp [hl] at hs; subst hs
      exact (h.scaleRows ((twin_claimCounts h).map _)).mulVec _
  | crh eps =>
    simp [Kind.body, crhBody] at hs; subst hs
    exact (h.map _).map _
  | unboundedSums =>
    simp only [Kind.body, usumsBody, bind, Except.bind, pure, Except.pure] at hs
    split at hs
    · simp at hs
    · rename_i h1
      split at hs
      · simp at hs
      · rename_i h2
        simp at hs; subst hs
        exact (h.mulVec _).rescale h1

theorem twin_init (hi : i < m.numSources) (hj : j < m.numSources) {c : AlgCfg α} (h : c.init m = .ok (t, b)) :
    Twin i j t := by
  unfold AlgCfg.init at h
  split at h
  all_goals
    first
    | (cases hp : priorBeliefs c.priors m with
       | error e => rw [hp] at h; cases h
       | ok b' => rw [hp] at h; cases h; exact .replicate hi hj _)
    | (cases h; exact .replicate hi hj _)

theorem twin_finish_trust (ht : Twin i j t) {c : AlgCfg α} {t' b' : Vec α} (h : c.finish t b = .ok (t', b')) :
    Twin i j t' := by
  unfold AlgCfg.finish at h
  split at h
  · split at h
    · cases h1 : rankingVector t with
      | error e => rw [h1] at h; cases h
      | ok rt =>
        cases h2 : rankingVector b with
        | error e => rw [h1, h2] at h; cases h
        | ok rb =>
          rw [h1, h2] at h
          cases h
          exact (ht.mapM h1).map _
    · cases h
  · cases h; exact ht

theorem twin_steps (h : Twin i j m.sc.rows) {k : Kind α} {it : IterCfg α} {st : IterState α} {n : Nat} {st' t' b' L}
    (hs : Steps it (k.body m) st t b n st' t' b' L) (ht : Twin i j t) :
    Twin i j t' ∧ ∀ e ∈ L, Twin i j e.trust := by
  induction hs with
  | refl => exact ⟨ht, by simp⟩
  | cons _ hb _ _ ih =>
    have h1 := twin_trust h ht hb
    obtain ⟨i1, i2⟩ := ih h1
    refine ⟨i1, fun e he => ?_⟩
    rcases List.mem_cons.1 he with rfl | he
    · exact h1
    · exact i2 e he

/-- A run. -/
theorem twin_exec (h : Twin i j m.sc.rows) (hi : i < m.numSources) (hj : j < m.numSources) {c : AlgCfg α} {fuel : Nat}
    {st : IterState α} {r : RunOut α} (hr : c.exec m fuel st = .ok r) :
    Twin i j r.trust ∧ ∀ e ∈ r.log, Twin i j e.trust := by
  obtain ⟨-, t0, b0, n, st', t, b, L, hi', -, hs, -, hf, -, hlog⟩ := (exec_ok_iff c m fuel st r).1 hr
  have h0 := twin_init hi hj hi'
  obtain ⟨h1, h2⟩ := twin_steps h hs h0
  refine ⟨twin_finish_trust h1 hf, fun e he => ?_⟩
  rw [hlog, List.mem_append] at he
  rcases he with he | he
  · unfold initLog at he
    split at he
    · obtain rfl := List.mem_singleton.1 he; exact h0
    · simp at he
  · exact h2 e he

/-- What is needed for equal beliefs. -/
def BeliefOf (i j : Nat) (m : Mats α) : Kind α → Prop
  | .pooledInvestment _ => False
  | .truthFinder _ _ _ => (∀ r ∈ m.imp.rows, r = []) ∧ (∀ r ∈ m.sc.rows, r.lookup i = r.lookup j)
  | _ => True

theorem impSc_none (h : ∀ r ∈ m.imp.rows, r = []) (x y : Nat) : impScEntry m x y = none := by
  have h' : ∀ k, m.imp.rows.getD k [] = [] := by
    intro k
    rw [List.getD_eq_getElem?_getD]
    cases hk : m.imp.rows[k]? with
    | none => rfl
    | some r => exact h r (List.mem_of_getElem? hk)
  unfold impScEntry
  simp only [h']
  simp

theorem twin_tfB (h1 : ∀ r ∈ m.imp.rows, r = []) (h2 : ∀ r ∈ m.sc.rows, r.lookup i = r.lookup j)
    (hi : i < m.numClaims) (hj : j < m.numClaims) (rho : α) : Twin i j (tfB rho m).rows := by
  unfold Twin tfB
  simp only [List.getElem?_map, List.getElem?_range hi, List.getElem?_range hj, Option.map_some, impSc_none h1]
  congr 2
  funext k
  have : (m.sc.rows.getD k []).lookup i = (m.sc.rows.getD k []).lookup j := by
    rw [List.getD_eq_getElem?_getD]
    cases hk : m.sc.rows[k]? with
    | none => rfl
    | some r => exact h2 r (List.mem_of_getElem? hk)
  rw [this]

/-- An iteration gives equal belief to claims with equal columns. -/
theorem twin_belief (h : Twin i j m.sc.T.rows) (hi : i < m.numClaims) (hj : j < m.numClaims) {k : Kind α}
    (hk : BeliefOf i j m k) {s : Step α} (hs : k.body m t b = .ok (some s)) : Twin i j s.belief := by
  cases k with
  | sums =>
    obtain ⟨a, c, h1, h2, h3⟩ := normalise2_ok (g := fun a b => ⟨t, a, a, b⟩) hs
    simp at h3; subst h3
    exact (h.mulVec _).normalise h2
  | averageLog =>
    obtain ⟨a, c, h1, h2, h3⟩ := normalise2_ok (g := fun a b => ⟨a, t, a, b⟩) hs
    simp at h3; subst h3
    exact (h.mulVec _).normalise h2
  | investment g =>
    simp only [Kind.body, investBody] at hs
    cases hu : updateTrust m t b with
    | none => rw [hu] at hs; simp [pure, Except.pure] at hs
    | some nt =>
      rw [hu] at hs
      obtain ⟨a, c, h1, h2, h3⟩ := normalise2_ok (g := fun a b => ⟨a, t, a, b⟩) hs
      simp at h3; subst h3
      exact ((h.mulVec _).map _).normalise h2
  | pooledInvestment g => exact hk.elim
  | truthFinder rho gamma t0 =>
    simp only [Kind.body, tfBody] at hs
    cases hl : logTrust t with
    | none => simp [hl] at hs
    | some tau =>
      simp [hl] at hs; subst hs
      exact ((twin_tfB hk.1 hk.2 hi hj rho).mulVec _).map _
  | crh eps =>
    simp [Kind.body, crhBody] at hs; subst hs
    exact (h.mulVec _).map _
  | unboundedSums =>
    simp only [Kind.body, usumsBody, bind, Except.bind, pure, Except.pure] at hs
    split at hs
    · simp at hs
    · rename_i h1
      split at hs
      · simp at hs
      · rename_i h2
        simp at hs; subst hs
        exact (h.mulVec _).rescale h2

theorem twin_finish_belief (hb : Twin i j b) {c : AlgCfg α} {t' b' : Vec α} (h : c.finish t b = .ok (t', b')) :
    Twin i j b' := by
  unfold AlgCfg.finish at h
  split at h
  · split at h
    · cases h1 : rankingVector t with
      | error e => rw [h1] at h; cases h
      | ok rt =>
        cases h2 : rankingVector b with
        | error e => rw [h1, h2] at h; cases h
        | ok rb =>
          rw [h1, h2] at h
          cases h
          exact (hb.mapM h2).map _
    · cases h
  · cases h; exact hb

theorem twin_steps_belief (h : Twin i j m.sc.T.rows) (hi : i < m.numClaims) (hj : j < m.numClaims) {k : Kind α}
    (hk : BeliefOf i j m k) {it : IterCfg α} {st : IterState α} {n : Nat} {st' t' b' L}
    (hs : Steps it (k.body m) st t b n st' t' b' L) :
    (1 ≤ n → Twin i j b') ∧ ∀ e ∈ L, Twin i j e.belief := by
  have key : ∀ {st t b n st' t' b' L}, Steps it (k.body m) st t b n st' t' b' L → (1 ≤ n ∨ Twin i j b) →
      Twin i j b' ∧ ∀ e ∈ L, Twin i j e.belief := by
    intro st t b n st' t' b' L hs
    induction hs with
    | refl => intro h; exact ⟨h.resolve_left (by omega), by simp⟩
    | cons _ hb _ _ ih =>
      intro _
      have h1 := twin_belief h hi hj hk hb
      obtain ⟨i1, i2⟩ := ih (.inr h1)
      refine ⟨i1, fun e he => ?_⟩
      rcases List.mem_cons.1 he with rfl | he
      · exact h1
      · exact i2 e he
  refine ⟨fun hn => (key hs (.inl hn)).1, ?_⟩
  cases hs with
  | refl => simp
  | cons h1 h2 h3 h4 => exact (key (.cons h1 h2 h3 h4) (.inl (by omega))).2

end
end TD
