import Verif.Lemmas.Run

/-! Matrices given by relations between labels. -/

namespace TD
open Spec
attribute [-instance] instBEqProd

section
variable {α A B : Type}

/-- Matrix whose rows and columns are labelled. -/
def Mat.ofRel (as : List A) (bs : List B) (g : A → B → Option α) : Mat α where
  nrows := as.length
  ncols := bs.length
  rows := as.map fun a => (enum bs).filterMap fun p => (g a p.2).map fun v => (p.1, v)

theorem enum_eq_range (bs : List B) :
    enum bs = (List.range bs.length).filterMap fun j => bs[j]?.map fun b => (j, b) := by
  induction bs using List.reverseRecOn with
  | nil => simp [enum]
  | append_singleton bs b ih =>
    rw [enum_append, ih]
    simp only [List.length_append, List.length_singleton, List.range_succ, List.filterMap_append]
    congr 1
    · apply List.filterMap_congr
      intro j hj
      rw [List.getElem?_append_left (by simpa using hj)]
    · simp

theorem map_eq_range {C : Type} (as : List A) (f : A → C) :
    as.map f = (List.range as.length).filterMap fun i => as[i]?.map f := by
  induction as using List.reverseRecOn with
  | nil => simp
  | append_singleton as b ih =>
    simp only [List.map_append, ih, List.length_append, List.length_singleton, List.range_succ,
      List.filterMap_append]
    congr 1
    · apply List.filterMap_congr
      intro j hj
      rw [List.getElem?_append_left (by simpa using hj)]
    · simp

theorem Mat.ofFn_eq_ofRel (as : List A) (bs : List B) (g : A → B → Option α)
    (h : Nat → Nat → Option α)
    (hg : ∀ (i j : Nat) a b, as[i]? = some a → bs[j]? = some b → h i j = g a b) :
    Mat.ofFn as.length bs.length h = Mat.ofRel as bs g := by
  unfold Mat.ofFn Mat.ofRel
  congr 1
  apply List.ext_getElem?
  intro i
  simp only [List.getElem?_map]
  rcases Nat.lt_or_ge i as.length with hi | hi
  · rw [List.getElem?_range hi, List.getElem?_eq_getElem hi]
    simp only [Option.map_some, Option.some.injEq]
    rw [enum_eq_range, List.filterMap_filterMap]
    apply List.filterMap_congr
    intro j hj
    have hj' : j < bs.length := by simpa using hj
    rw [List.getElem?_eq_getElem hj']
    simp only [Option.map_some, Option.bind_some]
    rw [hg i j _ _ (List.getElem?_eq_getElem hi) (List.getElem?_eq_getElem hj')]
  · rw [List.getElem?_eq_none (by simpa using hi), List.getElem?_eq_none hi]
    rfl

theorem Mat.ofRel_eq_ofFn (as : List A) (bs : List B) (g : A → B → Option α) :
    Mat.ofRel as bs g = Mat.ofFn as.length bs.length
      (fun i j => as[i]?.bind fun a => bs[j]?.bind fun b => g a b) := by
  symm
  apply Mat.ofFn_eq_ofRel
  intro i j a b ha hb
  simp [ha, hb]

theorem Mat.T_ofRel (as : List A) (bs : List B) (g : A → B → Option α) :
    (Mat.ofRel as bs g).T = Mat.ofRel bs as (fun b a => g a b) := by
  rw [Mat.ofRel_eq_ofFn, Mat.T_ofFn]
  apply Mat.ofFn_eq_ofRel
  intro i j a b ha hb
  simp [ha, hb]

theorem Mat.ofRel_congr (as : List A) (bs : List B) {g h : A → B → Option α}
    (H : ∀ a ∈ as, ∀ b ∈ bs, g a b = h a b) : Mat.ofRel as bs g = Mat.ofRel as bs h := by
  rw [Mat.ofRel_eq_ofFn]
  apply Mat.ofFn_eq_ofRel
  intro i j a b ha hb
  simp [ha, hb, H a (List.mem_of_getElem? ha) b (List.mem_of_getElem? hb)]

theorem mem_enum {bs : List B} {p : Nat × B} : p ∈ enum bs ↔ bs[p.1]? = some p.2 := by
  simp only [enum, List.mem_map]
  constructor
  · rintro ⟨q, hq, rfl⟩
    exact List.mem_zipIdx_iff_getElem?.1 hq
  · intro h
    exact ⟨(p.2, p.1), List.mem_zipIdx_iff_getElem?.2 h, rfl⟩

variable [Arith α]

theorem Vec.at_map {bs : List B} {F : B → α} {p : Nat × B} (hp : p ∈ enum bs) :
    Vec.at (bs.map F) p.1 = F p.2 := by
  rw [mem_enum] at hp
  simp [Vec.at, List.getD_eq_getElem?_getD, hp]

/-- Add one entry of a row. -/
def rowStep (g : B → Option α) (F : B → α) (acc : α) (b : B) : α :=
  match g b with
  | none => acc
  | some v => acc +. v *. F b

/-- One row of a matrix-vector product. -/
def rowDot (bs : List B) (g : B → Option α) (F : B → α) : α :=
  bs.foldl (rowStep g F) (Arith.ofNat 0)

theorem enum_map_snd (bs : List B) : (enum bs).map Prod.snd = bs := by
  simp [enum, Function.comp_def]

theorem Mat.mulVec_ofRel (as : List A) (bs : List B) (g : A → B → Option α) (F : B → α) :
    (Mat.ofRel as bs g).mulVec (bs.map F) = as.map fun a => rowDot bs (g a) F := by
  unfold Mat.mulVec Mat.ofRel rowDot
  simp only [List.map_map]
  apply List.map_congr_left
  intro a _
  simp only [Function.comp_apply]
  have key : ∀ (E : List (Nat × B)), (∀ p ∈ E, p ∈ enum bs) → ∀ acc : α,
      (E.filterMap fun p => (g a p.2).map fun v => (p.1, v)).foldl
        (fun acc p => acc +. p.2 *. Vec.at (bs.map F) p.1) acc =
      (E.map Prod.snd).foldl (rowStep (g a) F) acc := by
    intro E
    induction E with
    | nil => intro _ acc; rfl
    | cons p E ih =>
      intro hE acc
      have hp := Vec.at_map (F := F) (hE p (by simp))
      have ih' := ih (fun q hq => hE q (by simp [hq]))
      cases hg : g a p.2 with
      | none =>
        simp only [List.filterMap_cons, hg, Option.map_none, List.map_cons, List.foldl_cons, rowStep]
        exact ih' acc
      | some v =>
        simp only [List.filterMap_cons, hg, Option.map_some, List.map_cons, List.foldl_cons, hp, rowStep]
        exact ih' _
  rw [key _ (fun _ h => h), enum_map_snd]

theorem Mat.scaleCols_ofRel (as : List A) (bs : List B) (g : A → B → Option α) (F : B → α) :
    (Mat.ofRel as bs g).scaleCols (bs.map F) = Mat.ofRel as bs fun a b => (g a b).map (· *. F b) := by
  unfold Mat.scaleCols Mat.ofRel
  congr 1
  simp only [List.map_map]
  apply List.map_congr_left
  intro a _
  simp only [Function.comp_apply, List.map_filterMap]
  apply List.filterMap_congr
  intro p hp
  rw [Option.map_map, Option.map_map]
  congr 1
  funext v
  simp [Vec.at_map hp]

theorem Mat.scaleRows_ofRel (as : List A) (bs : List B) (g : A → B → Option α) (F : A → α) :
    (Mat.ofRel as bs g).scaleRows (as.map F) = Mat.ofRel as bs fun a b => (g a b).map (· *. F a) := by
  unfold Mat.scaleRows Mat.ofRel
  congr 1
  have : enum (as.map fun a => (enum bs).filterMap fun p => (g a p.2).map fun v => (p.1, v)) =
      (enum as).map fun p => (p.1, (enum bs).filterMap fun q => (g p.2 q.2).map fun v => (q.1, v)) := by
    simp [enum, List.zipIdx_map, Function.comp_def]
  rw [this, List.map_map]
  conv_rhs => rw [← enum_map_snd as, List.map_map]
  apply List.map_congr_left
  intro p hp
  simp only [Function.comp_apply, List.map_filterMap]
  apply List.filterMap_congr
  intro q _
  rw [Option.map_map, Option.map_map]
  congr 1
  funext v
  simp [Vec.at_map hp]

theorem vzip_map (f : α → α → α) (as : List A) (F G : A → α) :
    vzip f (as.map F) (as.map G) = as.map fun a => f (F a) (G a) := by
  simp [vzip, List.zipWith_map]

theorem ones_eq (as : List A) : (ones as.length : Vec α) = as.map fun _ => Arith.ofNat 1 := by
  simp [ones]

theorem zeros_eq (as : List A) : (zeros as.length : Vec α) = as.map fun _ => Arith.ofNat 0 := by
  simp [zeros]

end

section
variable {S V X α : Type} [DecidableEq S] [DecidableEq V] [DecidableEq X] [Arith α]
variable (l : List (S × V × X)) (f : Option (V → X → X → Option α))

/-- Who claims what, at label level. -/
def scL (s : S) (c : V × X) : Option α := oneIf (decide ((s, c) ∈ recorded l))

/-- Same variable, at label level. -/
def mxL (c d : V × X) : Option α := oneIf (decide (c.1 = d.1))

/-- Implications at label level. -/
def impL (f : Option (V → X → X → Option α)) (c d : V × X) : Option α :=
  match f with
  | none => none
  | some f => if c ≠ d ∧ c.1 = d.1 then f c.1 c.2 d.2 else none

theorem sc_eq_ofRel : (matsOf l f).sc = Mat.ofRel (sources l) (claims l) (scL l) := by
  apply Mat.ofFn_eq_ofRel
  intro i j a b ha hb
  simp [scRel, ha, hb, scL]

theorem scT_eq_ofRel :
    (matsOf l f).sc.T = Mat.ofRel (claims l) (sources l) (fun c s => scL l s c) := by
  rw [sc_eq_ofRel, Mat.T_ofRel]

theorem mutEx_eq_ofRel : (matsOf l f).mutEx = Mat.ofRel (claims l) (claims l) mxL := by
  apply Mat.ofFn_eq_ofRel
  intro i j a b ha hb
  simp [mxRel, ha, hb, mxL]

theorem imp_eq_ofRel : (matsOf l f).imp = Mat.ofRel (claims l) (claims l) (impL f) := by
  apply Mat.ofFn_eq_ofRel
  intro i j a b ha hb
  cases f with
  | none => rfl
  | some f => simp [impFn, ha, hb, impL]

theorem claimCounts_eq : claimCounts (matsOf l f) =
    (sources l).map fun s => rowDot (claims l) (scL l s) fun _ => Arith.ofNat 1 := by
  unfold claimCounts
  have : (matsOf l f).numClaims = (claims l).length := rfl
  rw [this, ones_eq, sc_eq_ofRel, Mat.mulVec_ofRel]

theorem sourceCounts_eq : sourceCounts (matsOf l f) =
    (claims l).map fun c => rowDot (sources l) (fun s => scL l s c) fun _ => Arith.ofNat 1 := by
  unfold sourceCounts
  have : (matsOf l f).numSources = (sources l).length := rfl
  rw [this, ones_eq, scT_eq_ofRel, Mat.mulVec_ofRel]

end
end TD
