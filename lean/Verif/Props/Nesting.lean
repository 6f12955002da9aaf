import Verif.Proofs.Nesting
/-!
Property C103: documents under a name (json_values.go:84-112, nodes.go).
-/

namespace Aql

open Spec

variable {E : Env} {m m' me : Matcher} {root : Node} {ms ms' : List (Str × Json)} {k : Str} {items : List Json}

theorem plain_under {n : Node} : PathsIn (Plain (.obj ms)) (under k n) := by
  induction n with
  | and l r ihl ihr => exact ⟨ihl, ihr⟩
  | or l r ihl ihr => exact ⟨ihl, ihr⟩
  | not e ih => exact ih
  | subdoc p e ih => exact ih
  | expr op f vs pos => exact ⟨k, f, rfl, by simp⟩

/-- **C103, objects.** If a query has a matcher, so has the query with `k.` before every path. On a document whose
member `k` is an object it gives the outcome that the query itself gives on that object. -/
theorem C103_nested (h : Ready E root m) (hp : PathsIn (· ≠ []) root) :
    (∃ m', Ready E (under k root) m') ∧
    ∀ m', Ready E (under k root) m' → ∀ ms ms', FirstMember E ms k (.obj ms') →
      (m'.match E (.valid (.obj ms))).2 = (m.match E (.valid (.obj ms'))).2 := by
  refine ⟨h.mapPaths _, fun m' h' ms ms' hf => ?_⟩
  refine match_eq_of_sat h' h plain_under (hp.imp fun _ => plain_object) ?_
  refine (sat_mapPaths (hp.imp fun path hne => ?_)).symm
  simp only [ScalarUnder, resolves_under hf hne, and_self, implies_true]

theorem sat_elements (hf : FirstMember E ms k (.arr items)) : ∀ {n : Node}, PathsIn (· ≠ []) n →
    (Disjunctive n → (Sat E (.obj ms) (under k n) ↔ ∃ o ∈ items, Sat E o n)) ∧
    (Polar true n → (∃ o ∈ items, Sat E o n) → Sat E (.obj ms) (under k n)) ∧
    (Polar false n → Sat E (.obj ms) (under k n) → ∀ o ∈ items, Sat E o n) := by
  intro n
  induction n with
  | and l r ihl ihr =>
    intro hp
    refine ⟨fun h => h.elim, fun h ⟨o, ho, hs⟩ => ?_, fun h hs o ho => ?_⟩
    · exact ⟨(ihl hp.1).2.1 h.1 ⟨o, ho, hs.1⟩, (ihr hp.2).2.1 h.2 ⟨o, ho, hs.2⟩⟩
    · exact ⟨(ihl hp.1).2.2 h.1 hs.1 o ho, (ihr hp.2).2.2 h.2 hs.2 o ho⟩
  | or l r ihl ihr =>
    intro hp
    refine ⟨fun h => ?_, fun h ⟨o, ho, hs⟩ => ?_, fun h hs o ho => ?_⟩
    · refine (or_congr ((ihl hp.1).1 h.1) ((ihr hp.2).1 h.2)).trans ?_
      constructor
      · rintro (⟨o, ho, hs⟩ | ⟨o, ho, hs⟩)
        · exact ⟨o, ho, .inl hs⟩
        · exact ⟨o, ho, .inr hs⟩
      · rintro ⟨o, ho, hs | hs⟩
        · exact .inl ⟨o, ho, hs⟩
        · exact .inr ⟨o, ho, hs⟩
    · exact hs.imp (fun hs => (ihl hp.1).2.1 h.1 ⟨o, ho, hs⟩) (fun hs => (ihr hp.2).2.1 h.2 ⟨o, ho, hs⟩)
    · exact hs.imp (fun hs => (ihl hp.1).2.2 h.1 hs o ho) (fun hs => (ihr hp.2).2.2 h.2 hs o ho)
  | not e ih =>
    intro hp
    refine ⟨fun h => h.elim, fun h ⟨o, ho, hs⟩ hn => hs ((ih hp).2.2 h hn o ho), fun h hs o ho hn =>
      hs ((ih hp).2.1 h ⟨o, ho, hn⟩)⟩
  | subdoc => exact fun _ => ⟨fun h => h.elim, fun _ ⟨_, _, h⟩ => h.elim, fun _ h => h.elim⟩
  | expr op f vs pos =>
    intro hp
    have hs := fun s => scalarUnder_elements (s := s) hf hp
    have key : op ≠ .NUL → (Sat E (.obj ms) (under k (.expr op f vs pos)) ↔ ∃ o ∈ items, Sat E o (.expr op f vs pos)) := by
      intro hop
      cases op with
      | NUL => exact absurd rfl hop
      | EXS =>
        simp only [under, mapPaths, Sat, resolves_elements hf hp]
        exact ⟨fun ⟨v, o, ho, h⟩ => ⟨o, ho, v, h⟩, fun ⟨o, ho, v, h⟩ => ⟨v, o, ho, h⟩⟩
      | EQ | SIM | LT | LTE | GT | GTE =>
        simp only [under, mapPaths, Sat, hs]
        exact ⟨fun ⟨v, hv, s, ⟨o, ho, h⟩, he⟩ => ⟨o, ho, v, hv, s, h, he⟩,
          fun ⟨o, ho, v, hv, s, h, he⟩ => ⟨v, hv, s, ⟨o, ho, h⟩, he⟩⟩
      | BET =>
        simp only [under, mapPaths, Sat, hs]
        exact ⟨fun ⟨x, y, hv, s, ⟨o, ho, h⟩, he⟩ => ⟨o, ho, x, y, hv, s, h, he⟩,
          fun ⟨o, ho, x, y, hv, s, h, he⟩ => ⟨x, y, hv, s, ⟨o, ho, h⟩, he⟩⟩
    exact ⟨key, fun h => (key h.2).2, fun h => absurd h.1 (by decide)⟩

/-- **C103, arrays, for the queries it holds of.** On a document whose member `k` is an array, the query with `k.` before
every path matches exactly if the query itself matches an element, if it is a disjunction of comparisons other than
`null`. If every comparison stands under an even number of `NOT`s it matches if an element does; if every one stands under
an odd number it matches only if all elements do. Missing: the converses, see `C103_elements_refuted`. -/
theorem C103_elements_partial (h : Ready E root m) (h' : Ready E (under k root) m')
    (hf : FirstMember E ms k (.arr items)) (hp : ∀ o ∈ items, PathsIn (Plain o) root) (hne : PathsIn (· ≠ []) root) :
    (Disjunctive root → (Accepts E m' (.obj ms) ↔ ∃ o ∈ items, Accepts E m o)) ∧
    (Polar true root → (∃ o ∈ items, Accepts E m o) → Accepts E m' (.obj ms)) ∧
    (Polar false root → Accepts E m' (.obj ms) → ∀ o ∈ items, Accepts E m o) := by
  have he : (∃ o ∈ items, Accepts E m o) ↔ ∃ o ∈ items, Sat E o root :=
    exists_congr fun o => and_congr_right fun ho => h.accepts (hp o ho)
  have ha : (∀ o ∈ items, Accepts E m o) ↔ ∀ o ∈ items, Sat E o root :=
    forall_congr' fun o => forall_congr' fun ho => h.accepts (hp o ho)
  rw [h'.accepts plain_under, he, ha]
  exact sat_elements hf hne

/-- **C103, arrays, null.** `k.path:null` matches exactly if some element has something at `path` and every element that
has something there has only nulls there. -/
theorem C103_null {path : List Str} {vs ws : List Val} {p1 p2 : Pos} (h : Ready E (.expr .NUL path vs p1) m)
    (hx : Ready E (.expr .EXS path ws p2) me) (h' : Ready E (under k (.expr .NUL path vs p1)) m')
    (hf : FirstMember E ms k (.arr items)) (hp : ∀ o ∈ items, Plain o path) (hne : path ≠ []) :
    Accepts E m' (.obj ms) ↔
      (∃ o ∈ items, Accepts E me o) ∧ ∀ o ∈ items, Accepts E me o → Accepts E m o := by
  have h1 : ∀ o ∈ items, (Accepts E m o ↔ Sat E o (.expr .NUL path vs p1)) := fun o ho => h.accepts (hp o ho)
  have h2 : ∀ o ∈ items, (Accepts E me o ↔ Sat E o (.expr .EXS path ws p2)) := fun o ho => hx.accepts (hp o ho)
  rw [h'.accepts plain_under]
  simp only [under, mapPaths, Sat, resolves_elements hf hne] at h1 h2 ⊢
  constructor
  · rintro ⟨⟨v, o, ho, hv⟩, hall⟩
    refine ⟨⟨o, ho, (h2 o ho).2 ⟨v, hv⟩⟩, fun o ho hm => (h1 o ho).2 ⟨(h2 o ho).1 hm, fun v hv => hall v ⟨o, ho, hv⟩⟩⟩
  · rintro ⟨⟨o, ho, hm⟩, hall⟩
    obtain ⟨v, hv⟩ := (h2 o ho).1 hm
    refine ⟨⟨v, o, ho, hv⟩, ?_⟩
    rintro w ⟨o', ho', hw⟩
    exact ((h1 o' ho').1 (hall o' ho' ((h2 o' ho').2 ⟨w, hw⟩))).2 w hw

/-- Some matcher of the query matches the document (all of them do then, as `Ready.accepts` shows). -/
def Meets (E : Env) (n : Node) (o : Json) : Prop := ∃ m, Ready E n m ∧ Accepts E m o

/-- **C103, arrays, exactly.** On a document whose member `k` is an array, the query with `k.` before every path asks of
every comparison whether some element meets it, of `null` whether all elements do that have the field, and combines the
answers. -/
theorem C103_elements_exact (h : Ready E root m) (h' : Ready E (under k root) m')
    (hf : FirstMember E ms k (.arr items)) (hp : ∀ o ∈ items, PathsIn (Plain o) root) (hne : PathsIn (· ≠ []) root) :
    Accepts E m' (.obj ms) ↔ Among (Meets E) items root := by
  rw [h'.accepts plain_under]
  have hre := h.reparses
  have hok := h.allOk
  have hg := h.grammar
  clear h h'
  induction root with
  | and l r ihl ihr =>
    exact and_congr (ihl (fun o ho => (hp o ho).1) hne.1 hre.1 hok.1 ⟨hg.1.1, hg.2.1⟩)
      (ihr (fun o ho => (hp o ho).2) hne.2 hre.2 hok.2 ⟨hg.1.2, hg.2.2⟩)
  | or l r ihl ihr =>
    exact or_congr (ihl (fun o ho => (hp o ho).1) hne.1 hre.1 hok.1 ⟨hg.1.1, hg.2.1⟩)
      (ihr (fun o ho => (hp o ho).2) hne.2 hre.2 hok.2 ⟨hg.1.2, hg.2.2⟩)
  | not e ih => exact not_congr (ih hp hne hre hok hg)
  | subdoc => exact hg.1.elim
  | expr op f vs pos =>
    obtain ⟨m, hm⟩ := ready_of_allOk hok hg hre
    have hl : ∀ o ∈ items, (Meets E (.expr op f vs pos) o ↔ Accepts E m o) := fun o ho =>
      ⟨fun ⟨m2, h2, ha⟩ => (hm.accepts (hp o ho)).2 ((h2.accepts (hp o ho)).1 ha), fun ha => ⟨m, hm, ha⟩⟩
    obtain ⟨m', hm'⟩ := hm.mapPaths (k :: ·)
    have hu : Sat E (.obj ms) (under k (.expr op f vs pos)) ↔ Accepts E m' (.obj ms) := (hm'.accepts plain_under).symm
    rw [hu]
    unfold Among
    split
    · rename_i hop
      subst hop
      obtain ⟨me, hme⟩ : ∃ me, Ready E (.expr .EXS f [] pos) me :=
        ready_of_allOk ⟨rfl, by simp, by simp, by simp, by simp⟩ ⟨trivial, by simp [LitsIn]⟩ (by simp [LitsIn])
      have hx : ∀ o ∈ items, (Meets E (.expr .EXS f [] pos) o ↔ Accepts E me o) := fun o ho =>
        ⟨fun ⟨m2, h2, ha⟩ => (hme.accepts (root := .expr .EXS f [] pos) (hp o ho)).2
          ((h2.accepts (root := .expr .EXS f [] pos) (hp o ho)).1 ha), fun ha => ⟨me, hme, ha⟩⟩
      rw [C103_null hm hme hm' hf hp hne]
      exact and_congr (exists_congr fun o => and_congr_right fun ho => (hx o ho).symm)
        (forall_congr' fun o => forall_congr' fun ho => imp_congr (hx o ho).symm (hl o ho).symm)
    · rename_i hop
      rw [(C103_elements_partial hm hm' hf hp hne).1 hop]
      exact exists_congr fun o => and_congr_right fun ho => (hl o ho).symm

-- `p.a:1 AND !p.b:2` on `{"p": [{"a": 1}, {"b": 3}]}`: one element meets the first comparison, none the second
example : answerOf testEnv "p.a:1 AND !p.b:2".toList (.obj [("p".toList, .arr [.obj [("a".toList, .num "1".toList)],
    .obj [("b".toList, .num "3".toList)]])]) = some true ∧
    ∀ P items, Among P items (.and (.expr .EQ ["a".toList] [.int 1 "1".toList noPosition] noPosition)
      (.not (.expr .EQ ["b".toList] [.int 2 "2".toList noPosition] noPosition))) ↔
      (∃ o ∈ items, P (.expr .EQ ["a".toList] [.int 1 "1".toList noPosition] noPosition) o) ∧
      ¬ ∃ o ∈ items, P (.expr .EQ ["b".toList] [.int 2 "2".toList noPosition] noPosition) o :=
  ⟨by decide +kernel, fun _ _ => by simp [Among]⟩

/-- **C103 is false** for arrays and other queries: the two sides of `AND` may match different elements, `NOT` asks that no
element matches, and `null` that all do. -/
theorem C103_elements_refuted :
    let x : Json := .obj [("a".toList, .num "1".toList)]
    let y : Json := .obj [("b".toList, .num "2".toList)]
    let z : Json := .obj [("a".toList, .null)]
    let p : Json → Json → Json := fun u v => .obj [("p".toList, .arr [u, v])]
    (answerOf testEnv "p.a:1 AND p.b:2".toList (p x y) = some true ∧
      answerOf testEnv "a:1 AND b:2".toList x = some false ∧ answerOf testEnv "a:1 AND b:2".toList y = some false) ∧
    (answerOf testEnv "!p.a:1".toList (p x y) = some false ∧ answerOf testEnv "!a:1".toList y = some true) ∧
    (answerOf testEnv "p.a:null".toList (p x z) = some false ∧ answerOf testEnv "a:null".toList z = some true) := by
  decide +kernel

-- a document under a name, and a query of each kind
example : answerOf testEnv "p.a:1 AND !p.b:2".toList (.obj [("p".toList, .obj [("a".toList, .num "1".toList)])]) =
      some true ∧
    answerOf testEnv "a:1 AND !b:2".toList (.obj [("a".toList, .num "1".toList)]) = some true ∧
    under "p".toList (.not (.expr .EXS ["a".toList] [] noPosition)) =
      .not (.expr .EXS ["p".toList, "a".toList] [] noPosition) ∧
    FirstMember testEnv [("p".toList, .arr [.null])] "p".toList (.arr [.null]) ∧
    Disjunctive (.or (.expr .EXS ["a".toList] [] noPosition) (.expr .EXS ["b".toList] [] noPosition)) := by
  refine ⟨by decide +kernel, by decide +kernel, rfl, ⟨[], "p".toList, [], rfl, by decide +kernel, by simp⟩, ?_, ?_⟩ <;>
    simp [Disjunctive]

end Aql
