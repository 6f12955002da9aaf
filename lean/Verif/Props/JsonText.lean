import Verif.Proofs.JsonSound
import Verif.Props.DocText
import Verif.Props.FieldReport
import Verif.Props.MsgText
import Verif.Props.Tree
import Verif.Props.SampleText
/-!
Property C126: what the repository writes as JSON, by the grammar of JSON texts.
-/

namespace Aql

open Spec

variable (E : Env) (short : Bool)

/-- **C126.** The two layouts of a value are JSON texts of RFC 8259 without white space around them. They encode one and the
same document, and it stands for that value and no other. -/
theorem C126_text (v : JOut) (n : Nat) : ∃ d, Encodes (v.text short n) d ∧ Encodes (v.flat short) d ∧
    (∀ w, DocFor d w ↔ w = v) ∧ NoMargin (v.text short n) ∧ NoMargin (v.flat short) := by
  have he : ∀ {t}, Writes t (.value (jsonDoc short v)) → Encodes t (jsonDoc short v) ∧ NoMargin t := by
    intro t ht
    refine ⟨⟨[], t, [], by simp, no_blanks, no_blanks, ht⟩, ?_⟩
    obtain ⟨c, u, h1, h2, -⟩ := value_starts ht
    obtain ⟨u', c', h3, h4⟩ := value_ends ht
    rintro x (hx | hx) hw
    · rw [h1] at hx
      simp at hx
      rw [hx, (docWs_iff x).2 hw] at h2
      cases h2
    · rw [h3] at hx
      simp at hx
      rw [hx, (docWs_iff x).2 hw] at h4
      cases h4
  have h1 := he (text_writes short v n)
  have h2 := he (flat_writes short v)
  refine ⟨_, h1.1, h2.1, fun w => ⟨fun h => stands_unique _ h (jsonDoc_stands short v), ?_⟩, h1.2, h2.2⟩
  rintro rfl
  exact jsonDoc_stands short w

/-- The layouts differ in white space outside strings only. -/
theorem C126_layouts (v : JOut) (n : Nat) : squeeze .outside (v.text short n) = squeeze .outside (v.flat short) := by
  obtain ⟨d, h1, h2, -⟩ := C126_text short v n
  exact (C124_same_document h1 h2).1 rfl

/-- The reader that the other claims use takes exactly the JSON texts of such values. -/
theorem C126_reader (s : Str) (v : JOut) : readJson s = some v ↔ ∃ d, Encodes s d ∧ DocFor d v := readJson_iff s v

/-- What is written is a document for `Match` exactly if no more than ten thousand arrays and objects are inside each other. -/
theorem C126_match (v : JOut) {t : Str} (ht : t = v.flat short ∨ ∃ n, t = v.text short n) :
    (joutNested v ≤ 10000 → ∃ d, docOfText t = .valid d ∧ ∀ w, DocFor d w ↔ w = v) ∧
      (10000 < joutNested v → docOfText t = .invalid) := by
  have key : ∃ d, Encodes t d ∧ ∀ w, DocFor d w ↔ w = v := by
    rcases ht with rfl | ⟨n, rfl⟩
    · obtain ⟨d, -, h, hw, -⟩ := C126_text short v 0
      exact ⟨d, h, hw⟩
    · obtain ⟨d, h, -, hw, -⟩ := C126_text short v n
      exact ⟨d, h, hw⟩
  obtain ⟨d, hd, hw⟩ := key
  have hn := stands_nested d ((hw v).2 rfl)
  refine ⟨fun h => ⟨d, (C124_document t d).2 ⟨hd, by omega⟩, hw⟩, fun h => (C124_invalid t).2 fun d' hd' => ?_⟩
  rw [C124_unique hd' hd]
  omega

/-- The statistics that aqltest prints are always taken by `Match`. -/
theorem C126_stats {m : Matcher} {s : MatchStats} (h : m.stats = .ok s) :
    ∃ d, docOfText (statsText short s) = .valid d ∧ ∀ w, DocFor d w ↔ w = .obj [("node_name".toList, .str m.root.name),
      ("times_checked".toList, .num (m.counters []).1), ("times_matched".toList, .num (m.counters []).2)] := by
  have h1 := C76_stats_text short h
  have h2 : s.json = .obj [("node_name".toList, .str m.root.name),
      ("times_checked".toList, .num (m.counters []).1), ("times_matched".toList, .num (m.counters []).2)] := by
    rw [statsText, readJson_text] at h1
    exact Option.some.inj h1
  rw [← h2]
  refine (C126_match short s.json (.inr ⟨0, rfl⟩)).1 ?_
  rw [h2]
  simp [joutNested, joutNestedMembers]

theorem nested_strs (l : List Str) : joutNestedItems (l.map .str) = 0 := by
  induction l with
  | nil => simp [joutNestedItems]
  | cons a l ih => simp [joutNestedItems, joutNested, ih]

theorem nested_objs (l : List Val) : joutNestedItems (l.map fun _ => .obj []) ≤ 1 := by
  induction l with
  | nil => simp [joutNestedItems]
  | cons a l ih =>
    rw [List.map_cons, joutNestedItems, joutNested, joutNestedMembers]
    omega

theorem nested_tree (n : Node) : treeLevels n + 2 ≤ joutNested n.json ∧ joutNested n.json ≤ treeLevels n + 3 := by
  induction n with
  | and l r hl hr => simp only [Node.json, joutNested, joutNestedMembers, treeLevels]; omega
  | or l r hl hr => simp only [Node.json, joutNested, joutNestedMembers, treeLevels]; omega
  | not e he => simp only [Node.json, joutNested, joutNestedMembers, treeLevels]; omega
  | subdoc f e he => simp only [Node.json, joutNested, joutNestedMembers, treeLevels, jsonField, nested_strs]; omega
  | expr op f vs p =>
    have hv : joutNested (jsonVals vs) ≤ 2 := by
      unfold jsonVals
      split
      · simp [joutNested]
      · have := nested_objs vs
        rw [joutNested]
        omega
    simp only [Node.json, joutNested, joutNestedMembers, treeLevels, jsonField, nested_strs, Pos.json]
    omega

/-- The tree that the browser shows is taken by `Match` if the query has fewer than 9998 levels above its comparisons, and not
taken if it has more. -/
theorem C126_tree (n : Node) :
    (treeLevels n < 9998 → ∃ d, docOfText (treeText short n) = .valid d ∧ ∃ j, DocFor d j ∧ WrittenAs n j) ∧
      (9998 < treeLevels n → docOfText (treeText short n) = .invalid) := by
  have hn := nested_tree n
  have hm := C126_match short n.json (t := treeText short n) (.inr ⟨0, rfl⟩)
  refine ⟨fun h => ?_, fun h => hm.2 (by omega)⟩
  obtain ⟨d, hd, hw⟩ := hm.1 (by omega)
  obtain ⟨j, hj, hj'⟩ := C77_tree_format short n
  rw [treeText, readJson_text] at hj
  cases hj
  exact ⟨d, hd, _, (hw _).2 rfl, hj'⟩

/-- A message is always taken. -/
theorem C126_message (m : Msg) : ∃ d, docOfText (m.json.flat short) = .valid d ∧ ∀ w, DocFor d w ↔ w = m.json := by
  refine (C126_match short m.json (.inl rfl)).1 ?_
  simp [Msg.json, Pos.json, joutNested, joutNestedMembers]

theorem nested_members {ms : List (Str × JOut)} {n : Nat} : joutNestedMembers ms ≤ n ↔ ∀ m ∈ ms, joutNested m.2 ≤ n := by
  induction ms with
  | nil => simp [joutNestedMembers]
  | cons m ms ih =>
    obtain ⟨k, v⟩ := m
    simp [joutNestedMembers, ih]

theorem encountered_nested {fs : FieldStats} {enc : List (Str × JOut)} (h : fs.encountered = .ok enc) :
    ∀ m ∈ enc, joutNested m.2 ≤ 2 := by
  unfold FieldStats.encountered at h
  generalize fs.types.zip encounteredName = l at h
  induction l generalizing enc with
  | nil => simp [flatMapGo] at h; subst h; simp
  | cons x l ih =>
    rw [flatMapGo] at h
    split at h
    · cases h
    next ys hy =>
    split at h
    · cases h
    next zs hz =>
    cases h
    intro m hm
    rcases List.mem_append.1 hm with hm | hm
    · split at hy
      · split at hy
        · cases hy
        · cases hy
          simp only [List.mem_cons, List.not_mem_nil, or_false] at hm
          subst hm
          simp only [joutNested]
          refine Nat.succ_le_succ (nested_members.2 fun m hm => ?_)
          rw [(sortKeys_perm _).mem_iff] at hm
          simp only [List.mem_cons, List.not_mem_nil, or_false] at hm
          rcases hm with rfl | rfl | rfl <;> simp [joutNested, nested_strs]
      · cases hy; cases hm
    · exact ih hz m hm

/-- The report about the values of a field is always taken. -/
theorem C126_fields {fs : FieldStats} {t : Str} (h : fs.marshalJson short = .ok t) :
    ∃ d v, fs.json = .ok v ∧ docOfText t = .valid d ∧ ∀ w, DocFor d w ↔ w = v := by
  unfold FieldStats.marshalJson at h
  split at h
  · cases h
  next v hv =>
  cases h
  obtain ⟨d, hd⟩ := (C126_match short v (.inl rfl)).1 (by
    unfold FieldStats.json at hv
    split at hv
    · cases hv
    next enc he =>
    simp only [Except.ok.injEq] at hv
    subst hv
    refine Nat.le_trans (?_ : _ ≤ 4) (by norm_num)
    rw [joutNested]
    refine Nat.succ_le_succ (nested_members.2 fun m hm => ?_)
    rw [(sortKeys_perm _).mem_iff, List.mem_append] at hm
    rcases hm with hm | hm
    · simp only [List.mem_cons, List.not_mem_nil, or_false] at hm
      rcases hm with rfl | rfl
      · dsimp only
        split <;> simp [joutNested, nested_strs]
      · simp [joutNested]
    · split at hm
      · simp only [List.mem_cons, List.not_mem_nil, or_false] at hm
        subst hm
        simp only [joutNested]
        refine Nat.succ_le_succ (nested_members.2 fun m hm => ?_)
        rw [(sortKeys_perm _).mem_iff] at hm
        exact encountered_nested he m hm
      · cases hm)
  exact ⟨d, v, hv, hd⟩

/-! ### A case -/

/-- A value with an escaped character, in its two layouts, and the document. -/
example : (JOut.obj [("a<".toList, .arr [.num (-12), .str "\n\u0001".toList])]).flat true =
      "{\"a\\u003c\":[-12,\"\\n\\u0001\"]}".toList ∧
    (JOut.obj [("a<".toList, .arr [.num (-12), .str "\n\u0001".toList])]).text true 0 =
      "{\n  \"a\\u003c\": [\n    -12,\n    \"\\n\\u0001\"\n  ]\n}".toList ∧
    DocFor (.obj [("a\\u003c".toList, .arr [.num "-12".toList, .str "\\n\\u0001".toList])])
      (.obj [("a<".toList, .arr [.num (-12), .str "\n\u0001".toList])]) := by
  refine ⟨by decide +kernel, by decide +kernel, ?_⟩
  simp only [DocFor, DocsForMembers, DocsForItems, and_true]
  exact ⟨by decide +kernel, by decide +kernel, by decide +kernel⟩

/-- A query below ten thousand negations: its tree is a JSON text that `Match` does not take. -/
example : ∃ n : Node, 9998 < treeLevels n ∧ docOfText (treeText short n) = .invalid ∧ ∃ d, Encodes (treeText short n) d := by
  have key : ∀ k, treeLevels (Nat.repeat Node.not k (.expr .EXS ["a".toList] [] ⟨1, 1, 0, 0⟩)) = k := by
    intro k
    induction k with
    | zero => rfl
    | succ k ih => rw [Nat.repeat, treeLevels, ih]
  obtain ⟨d, hd, -⟩ := C126_text short (Nat.repeat Node.not 10000 (.expr .EXS ["a".toList] [] ⟨1, 1, 0, 0⟩)).json 0
  exact ⟨_, by rw [key]; norm_num, (C126_tree short _).2 (by rw [key]; norm_num), d, hd⟩

end Aql
