import Verif.Props.Nesting
/-!
Property C104: other names in query and document (json_values.go:84-112).
-/

namespace Aql

open Spec

variable {E : Env} {m m' : Matcher} {root : Node} {r ρ : Str → Str}

theorem renamed_null (path : List Str) (hr : ∀ raw, E.unescape (r raw) = (E.unescape raw).map ρ)
    (hρ : Function.Injective ρ) (d : Json) : (∀ v, Resolves E d path v → v = .null) ↔
      ∀ v, Resolves E (renameDoc r d) (path.map ρ) v → v = .null := by
  simp only [resolves_rename hr hρ]
  constructor
  · rintro h v ⟨w, hw, rfl⟩
    rw [h w hw, renameDoc]
  · intro h v hv
    have := h _ ⟨v, hv, rfl⟩
    cases v <;> rw [renameDoc] at this <;> cases this

/-- **C104.** If a query has a matcher, so has the query with its names replaced. If different names stay different, the
renamed query gives the outcome on the renamed document that the query gives on the document. -/
theorem C104_renaming (h : Ready E root m) (hρ : Function.Injective ρ)
    (hr : ∀ raw, E.unescape (r raw) = (E.unescape raw).map ρ) :
    (∃ m', Ready E (renamed ρ root) m') ∧
    ∀ m', Ready E (renamed ρ root) m' → ∀ d, PathsIn (Plain d) root → PathsIn (Plain (renameDoc r d)) (renamed ρ root) →
      (m'.match E (.valid (renameDoc r d))).2 = (m.match E (.valid d)).2 := by
  refine ⟨h.mapPaths _, fun m' h' d hp hp' => ?_⟩
  refine match_eq_of_sat h' h hp' hp (sat_mapPaths (hp.imp fun path _ => ⟨fun s => scalarUnder_rename hr hρ, ?_, ?_⟩)).symm
  · simp only [resolves_rename hr hρ]
    exact ⟨fun ⟨v, h⟩ => ⟨_, v, h, rfl⟩, fun ⟨_, v, h, _⟩ => ⟨v, h⟩⟩
  · exact renamed_null path hr hρ d

/-- **C104, objects.** On objects nothing is asked of the names. -/
theorem C104_renaming_objects (h : Ready E root m) (h' : Ready E (renamed ρ root) m') (hρ : Function.Injective ρ)
    (hr : ∀ raw, E.unescape (r raw) = (E.unescape raw).map ρ) (hne : PathsIn (· ≠ []) root) (ms : List (Str × Json)) :
    (m'.match E (.valid (renameDoc r (.obj ms)))).2 = (m.match E (.valid (.obj ms))).2 := by
  refine (C104_renaming h hρ hr).2 m' h' _ (hne.imp fun _ => plain_object) ?_
  rw [renameDoc]
  exact pathsIn_mapPaths.2 (hne.imp fun p hp => plain_object (by simpa using hp))

/-- **C104 needs it:** a renaming that makes two names equal changes answers. -/
theorem C104_merge_refuted :
    let d : Json := .obj [("a".toList, .num "1".toList), ("b".toList, .num "2".toList)]
    let r : Str → Str := fun _ => "c".toList
    answerOf testEnv "b:2".toList d = some true ∧ answerOf testEnv "c:2".toList (renameDoc r d) = some false := by
  decide +kernel

-- a renaming of all names of a document
example : answerOf testEnv "xa.xb:1".toList (renameDoc ('x' :: ·)
      (.obj [("a".toList, .arr [.obj [("b".toList, .num "1".toList)]])])) = some true ∧
    answerOf testEnv "a.b:1".toList (.obj [("a".toList, .arr [.obj [("b".toList, .num "1".toList)]])]) = some true ∧
    Function.Injective (fun s : Str => 'x' :: s) ∧
    (∀ raw, testEnv.unescape ('x' :: raw) = (testEnv.unescape raw).map ('x' :: ·)) ∧
    renamed ('x' :: ·) (.expr .EXS ["a".toList, "b".toList] [] noPosition) =
      .expr .EXS ["xa".toList, "xb".toList] [] noPosition :=
  ⟨by decide +kernel, by decide +kernel, fun _ _ h => (List.cons.inj h).2, fun raw => by
    by_cases h : '\\' ∈ raw <;> simp [testEnv, h], rfl⟩

end Aql
