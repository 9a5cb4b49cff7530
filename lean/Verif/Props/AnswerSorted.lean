import Verif.Props.AnswerText
/-!
# C105: the members of the objects in an answer are sorted
-/

namespace TD.Spec

/-- `w` is an object whose names are in alphabetical order (that of Unicode code points), none twice. -/
def Alphabetical {α : Type} (w : WJson α) : Prop := ∃ fs, w = .obj fs ∧ (fs.map Prod.fst).Pairwise (· < ·)

/-- `w` is an object whose names are the keys of `d`, written as texts, in the order `before` of the keys. -/
def NamesInOrder {α κ β : Type} (before : κ → κ → Prop) (str : κ → Text) (d : Dict κ β) (w : WJson α) : Prop :=
  ∃ (fs : List (Text × WJson α)) (ks : List κ), w = .obj fs ∧ fs.map Prod.fst = ks.map str ∧ ks.Perm (d.map Prod.fst) ∧ ks.Pairwise before

end TD.Spec

namespace TD
open Spec

theorem sortedObj_order {α κ β L : Type} [LinearOrder L] {lt : κ → κ → Bool} (k : κ → L) (h : ∀ x y, lt x y = decide (k x < k y)) (str : κ → Text)
    (f : β → WJson α) (d : Dict κ β) : NamesInOrder (fun a b => k a ≤ k b) str d (sortedObj lt str f d) := by
  obtain ⟨h1, h2, -⟩ := pySorted_spec (k := fun p : κ × β => k p.1) (lt := fun a b => lt a.1 b.1) (fun x y => h x.1 y.1) d
  refine ⟨_, (pySorted (fun a b : κ × β => lt a.1 b.1) d).map Prod.fst, rfl, ?_, h2.map _, ?_⟩
  · simp [List.map_map, Function.comp_def]
  · rw [List.pairwise_map]
    exact h1

theorem sortedObj_ascends {α κ β : Type} [LinearOrder κ] {lt : κ → κ → Bool} (h : ∀ x y, lt x y = decide (x < y)) (str : κ → Text)
    (f : β → WJson α) {d : Dict κ β} (hd : (d.map Prod.fst).Nodup) : NamesInOrder (· < ·) str d (sortedObj lt str f d) := by
  obtain ⟨fs, ks, e1, e2, e3, e4⟩ := sortedObj_order (k := id) h str f d
  refine ⟨fs, ks, e1, e2, e3, ?_⟩
  have hn : ks.Nodup := e3.nodup_iff.2 hd
  exact (e4.and hn).imp fun h => lt_of_le_of_ne h.1 h.2

theorem textLt_iff (x y : Text) : textLt x y = @decide (x < y) (LinearOrder.toDecidableLT x y) := by
  unfold textLt
  exact decide_eq_decide.2 Iff.rfl

section
variable {X α : Type} [DecidableEq X] [Arith α]

/-- **C105**.  Scores are listed by the numbers of the sources and variables in ascending order, for values in the order of the values. -/
theorem C105_scores_sorted (env : AnswerEnv X α) {L : Type} [LinearOrder L] (k : X → L) (hk : ∀ x y, env.ltVal x y = decide (k x < k y)) :
    (∀ d : Dict Nat α, (d.map Prod.fst).Nodup → NamesInOrder (· < ·) env.strNat d (outValJson env (.trust d))) ∧
    (∀ d : Dict Nat (Dict X α), (d.map Prod.fst).Nodup → NamesInOrder (· < ·) env.strNat d (outValJson env (.belief d)) ∧
      ∀ fs, outValJson env (.belief d) = .obj fs → ∀ p ∈ fs, ∃ q ∈ d, p.1 = env.strNat q.1 ∧
        NamesInOrder (fun x y => k x ≤ k y) env.strVal q.2 p.2) ∧
    (∀ d : Dict Nat (α × α), (d.map Prod.fst).Nodup → NamesInOrder (· < ·) env.strNat d (outValJson env (.beliefStats d))) ∧
    (∀ d : Dict Nat (List X), (d.map Prod.fst).Nodup → NamesInOrder (· < ·) env.strNat d (outValJson env (.mostBelieved d))) := by
  refine ⟨fun d hd => sortedObj_ascends (fun x y => by rfl) _ _ hd, fun d hd => ⟨sortedObj_ascends (fun x y => by rfl) _ _ hd, ?_⟩,
    fun d hd => sortedObj_ascends (fun x y => by rfl) _ _ hd,
    fun d hd => by unfold outValJson; exact sortedObj_ascends (fun x y => by rfl) _ _ hd⟩
  intro fs h p hp
  cases h
  obtain ⟨q, hq, rfl⟩ := List.mem_map.1 hp
  exact ⟨q, (pySorted_perm _ _).mem_iff.1 hq, rfl, sortedObj_order k hk _ _ _⟩

/-- **C105**.  The members of the answer, of the output of each algorithm, of the imagery and of the differences are in
alphabetical order, and so are the algorithms. -/
theorem C105_sorted {R : Rounding} {env : Env X R} (aenv : AnswerEnv X (FP R)) {req : Request} {data : Dict Text (WebOut X (FP R))}
    {messages : List Text} (h : webRun env req = .ok (.ok data messages)) :
    Alphabetical (answerJson aenv data messages) ∧
    (∃ w, Member (answerJson aenv data messages) "data" w ∧ NamesInOrder (· < ·) id data w) ∧
    ∀ label out, data.get? label = some out → Alphabetical (outJson aenv out) ∧ Alphabetical (imageryJson aenv out) ∧
      ∀ D, out.diff = some D → Alphabetical (diffJson D) ∧
        ((D.trust.map Prod.fst).Nodup → ∃ w, Member (diffJson D) "trust" w ∧ NamesInOrder (· < ·) id D.trust w) ∧
        ((D.belief.map Prod.fst).Nodup → ∃ w, Member (diffJson D) "belief" w ∧ NamesInOrder (· < ·) id D.belief w) := by
  have hnd := (webRun_made h).1
  refine ⟨⟨_, rfl, ?_⟩, ⟨_, ⟨_, rfl, rfl⟩, sortedObj_ascends textLt_iff _ _ hnd⟩, fun label out ho => ⟨⟨_, rfl, ?_⟩, ⟨_, rfl, ?_⟩, fun D hD =>
    ⟨⟨_, rfl, ?_⟩, fun hn => ⟨_, ⟨_, rfl, rfl⟩, sortedObj_ascends textLt_iff _ _ hn⟩,
      fun hn => ⟨_, ⟨_, rfl, rfl⟩, sortedObj_ascends textLt_iff _ _ hn⟩⟩⟩⟩
  · show List.Pairwise (· < ·) ["data".toList, "messages".toList, "ok".toList]
    decide
  · have hsub : ∀ (n : String) (v : Option (WJson (FP R))) (L : List (Text × WJson (FP R))) (K : List Text), (L.map Prod.fst).Sublist K →
        ((member? n v ++ L).map Prod.fst).Sublist (n.toList :: K) := by
      intro n v L K hL
      cases v with
      | none => exact hL.cons _
      | some v => exact hL.cons₂ _
    have hall : List.Pairwise (· < ·) ["accuracy".toList, "belief".toList, "belief_stats".toList, "diff".toList, "imagery".toList,
        "iterations".toList, "most_believed_values".toList, "time".toList, "trust".toList, "trust_stats".toList] := by decide
    refine hall.sublist (hsub _ _ _ _ (hsub _ _ _ _ (hsub _ _ _ _ (hsub _ _ _ _ (List.Sublist.cons₂ _ (hsub _ _ _ _ (hsub _ _ _ _
      (hsub _ _ _ _ (hsub _ _ _ _ ?_)))))))))
    have := hsub "trust_stats" ((out.fields.get? .trustStats).map (outValJson aenv)) [] [] (List.Sublist.refl _)
    rwa [List.append_nil] at this
  · cases out.animation with
    | none => exact List.pairwise_singleton _ _
    | some doc =>
      show List.Pairwise (· < ·) ["animation".toList, "graph".toList]
      decide
  · show List.Pairwise (· < ·) ["belief".toList, "iterations".toList, "time_taken".toList, "trust".toList]
    decide


/-- An answer for two algorithms. -/
example (aenv : AnswerEnv (Fin 10) Ex) : ∃ req, ∃ data : Dict Text (WebOut (Fin 10) Ex), ∃ messages,
    webRun demoEnv req = .ok (.ok data messages) ∧ (∀ label, label ∈ data.keys ↔ label ∈ ["sums".toList, "average_log".toList]) ∧
    Alphabetical (answerJson aenv data messages) := by
  have hh : ∀ j v, demoGrid[0]? = some [some 1, some 2] ∧ [some (1 : Fin 10), some 2][j]? = some (some v) →
      Holds demoGrid 0 j v := fun j v h => ⟨_, h.1, h.2⟩
  obtain ⟨req, d, resp, h1, h2, h3, hans, h4⟩ := C74_answered demoEnv_ok demo_form (m := 2) (n := 2) (g := demoGrid)
    (by decide) (by decide) ⟨rfl, by unfold Rect demoGrid; decide⟩ ⟨0, 0, 1, hh 0 1 ⟨rfl, rfl⟩⟩
    ["sums".toList, "average_log".toList] (by simp) (by
      intro t ht
      simp only [List.mem_cons, List.not_mem_nil, or_false] at ht
      rcases ht with rfl | rfl
      · exact ⟨.sums, rfl, nofun, nofun⟩
      · exact ⟨.averageLog, rfl, nofun, fun _ => ⟨0, 0, 1, 1, 2, by decide, hh 0 1 ⟨rfl, rfl⟩, hh 1 2 ⟨rfl, rfl⟩⟩⟩)
    (.fixed 20 "l1".toList none (by decide)) false none nofun
  rcases h4 with ⟨data, messages, rfl, hk⟩ | ⟨-, h4⟩
  swap
  · exact absurd h4 (by decide)
  exact ⟨req, data, messages, h3, hk, (C105_sorted aenv h3).1⟩

/-- Scores of the sources 10 and 9, in this order in the dictionary. -/
example (env : AnswerEnv Nat Ex) (h : ∀ x y, env.ltVal x y = decide (x < y)) (a b : Ex) :
    NamesInOrder (· < ·) env.strNat [(10, a), (9, b)] (outValJson env (.trust [(10, a), (9, b)])) :=
  (C105_scores_sorted env id h).1 [(10, a), (9, b)] (by simp)

end
end TD
