import Verif.Proofs.JsonOut
import Verif.Props.Browser
import Verif.Props.Readme
import Verif.Spec.Complaint
/-!
Properties C76 and C77: the JSON texts that the repository prints.
-/

namespace Aql

open Spec

variable (short : Bool)

/-! ### C76 -/

mutual
theorem statsJson_inj : ∀ (s s' : MatchStats), s.json = s'.json → s = s'
  | .mk n c m [], .mk n' c' m' [], h => by
    simp only [MatchStats.json, JOut.obj.injEq, List.cons.injEq, Prod.mk.injEq, JOut.str.injEq, JOut.num.injEq,
      Nat.cast_inj, true_and, and_true] at h
    obtain ⟨rfl, rfl, rfl⟩ := h
    rfl
  | .mk n c m [], .mk n' c' m' (k :: ks), h => by simp [MatchStats.json] at h
  | .mk n c m (k :: ks), .mk n' c' m' [], h => by simp [MatchStats.json] at h
  | .mk n c m (k :: ks), .mk n' c' m' (k' :: ks'), h => by
    simp only [MatchStats.json, JOut.obj.injEq, List.cons.injEq, Prod.mk.injEq, JOut.str.injEq, JOut.num.injEq,
      Nat.cast_inj, true_and, and_true, JOut.arr.injEq] at h
    obtain ⟨rfl, rfl, rfl, h1, h2⟩ := h
    rw [statsJson_inj k k' h1, jsonKids_inj ks ks' h2]
theorem jsonKids_inj : ∀ (ks ks' : List MatchStats), jsonKids ks = jsonKids ks' → ks = ks'
  | [], [], _ => rfl
  | [], _ :: _, h => by simp [jsonKids] at h
  | _ :: _, [], h => by simp [jsonKids] at h
  | k :: ks, k' :: ks', h => by
    simp only [jsonKids, List.cons.injEq] at h
    rw [statsJson_inj k k' h.1, jsonKids_inj ks ks' h.2]
end

/-- **C76.** The statistics printed for a matcher are a JSON text; it is an object with the name of the
root, how often it was checked and how often it matched, whatever characters the name has. -/
theorem C76_stats_text {m : Matcher} {s : MatchStats} (h : m.stats = .ok s) :
    readJson (statsText short s) = some (.obj [("node_name".toList, .str m.root.name),
      ("times_checked".toList, .num (m.counters []).1), ("times_matched".toList, .num (m.counters []).2)]) := by
  have : s = .mk m.root.name (m.counters []).1 (m.counters []).2 [] := by
    unfold Matcher.stats at h
    split at h
    · cases h
    · cases h; rfl
  subst this
  rw [statsText, readJson_text]
  simp only [MatchStats.json]

/-- **C76.** Different statistics have different texts. -/
theorem C76_stats_unique (s s' : MatchStats) : statsText short s = statsText short s' ↔ s = s' := by
  constructor
  · intro h
    exact statsJson_inj s s' (jsonText_inj short h)
  · rintro rfl; rfl

-- a name with a quotation mark, an angle bracket and a line break
example : String.ofList (statsText false (.mk "a: \"<\n\"".toList 2 1 [])) =
    "{\n  \"node_name\": \"a: \\\"\\u003c\\n\\\"\",\n  \"times_checked\": 2,\n  \"times_matched\": 1\n}" := by
  decide +kernel

/-! ### C77 -/

/-- A conjunction or a disjunction. -/
def Spec.junction (b : Bool) (l r : Node) : Node := if b then .and l r else .or l r

/-- Trees that differ at most in AND versus OR and in the values compared with, not in their number. -/
inductive Spec.SameShown : Node → Node → Prop
  | junction {b b' l r l' r'} : SameShown l l' → SameShown r r' → SameShown (junction b l r) (junction b' l' r')
  | not {e e'} : SameShown e e' → SameShown (.not e) (.not e')
  | subdoc {f e e'} : SameShown e e' → SameShown (.subdoc f e) (.subdoc f e')
  | expr {op f vs vs' p} : vs.length = vs'.length → SameShown (.expr op f vs p) (.expr op f vs' p)

theorem opText_inj {o o' : Op} (h : o.text = o'.text) : o = o' := by
  cases o <;> cases o' <;> first | rfl | exact absurd h (by decide)

theorem jsonField_inj {f f' : List Str} (h : jsonField f = jsonField f') : f = f' := by
  simp only [jsonField, JOut.arr.injEq] at h
  exact List.map_injective_iff.2 (fun _ _ h => JOut.str.inj h) h

theorem jsonVals_eq {vs vs' : List Val} : jsonVals vs = jsonVals vs' ↔ vs.length = vs'.length := by
  cases vs <;> cases vs' <;> simp [jsonVals]

theorem posJson_inj {p p' : Pos} (h : p.json = p'.json) : p = p' := by
  cases p; cases p'
  simpa [Pos.json] using h

theorem nodeJson_shown : ∀ (n n' : Node), n.json = n'.json → SameShown n n' := by
  intro n
  have jand : ∀ l r, Node.and l r = junction true l r := fun _ _ => rfl
  have jor : ∀ l r, Node.or l r = junction false l r := fun _ _ => rfl
  induction n with
  | and l r ihl ihr =>
    intro n' h
    cases n' with
    | and l' r' => simp [Node.json] at h; rw [jand, jand]; exact .junction (ihl _ h.1) (ihr _ h.2)
    | or l' r' => simp [Node.json] at h; rw [jand, jor]; exact .junction (ihl _ h.1) (ihr _ h.2)
    | _ => simp [Node.json] at h
  | or l r ihl ihr =>
    intro n' h
    cases n' with
    | and l' r' => simp [Node.json] at h; rw [jor, jand]; exact .junction (ihl _ h.1) (ihr _ h.2)
    | or l' r' => simp [Node.json] at h; rw [jor, jor]; exact .junction (ihl _ h.1) (ihr _ h.2)
    | _ => simp [Node.json] at h
  | not e ih =>
    intro n' h
    cases n' with
    | not e' => simp [Node.json] at h; exact .not (ih _ h)
    | _ => simp [Node.json] at h
  | subdoc f e ih =>
    intro n' h
    cases n' with
    | subdoc f' e' =>
      simp [Node.json] at h
      rw [jsonField_inj h.1]
      exact .subdoc (ih _ h.2)
    | _ => simp [Node.json] at h
  | expr op f vs p =>
    intro n' h
    cases n' with
    | expr op' f' vs' p' =>
      simp [Node.json] at h
      obtain ⟨h1, h2, h3, h4⟩ := h
      rw [opText_inj h1, jsonField_inj h2, posJson_inj h4]
      exact .expr (jsonVals_eq.1 h3)
    | _ => simp [Node.json] at h

/-- **C77, exactly.** The tree printed for a query is the same for two trees iff they differ at most in
AND versus OR and in the values of comparisons. -/
theorem C77_tree_exact (n n' : Node) : treeText short n = treeText short n' ↔ SameShown n n' := by
  constructor
  · intro h
    exact nodeJson_shown n n' (jsonText_inj short h)
  · intro h
    unfold treeText
    congr 1
    induction h with
    | @junction b b' l r l' r' _ _ ih ih' => cases b <;> cases b' <;> simp [junction, Node.json, ih, ih']
    | not _ ih => simp [Node.json, ih]
    | subdoc _ ih => simp [Node.json, ih]
    | expr h => simp [Node.json, jsonVals_eq.2 h]

/-- Operator, field, number of values and position of a comparison. -/
def shownPart : Node → Option (Op × List Str × Nat × Pos)
  | .expr op f vs p => some (op, f, vs.length, p)
  | _ => none

/-- **C77, partial.** The printed tree is a JSON text, and it determines the operators, fields, positions
and numbers of values of all comparisons, in order. Missing: the values and AND versus OR, see
`C77_tree_refuted`. -/
theorem C77_tree_partial (n n' : Node) (h : treeText short n = treeText short n') :
    (readJson (treeText short n)).isSome ∧
    (comparisons n).map shownPart =
      (comparisons n').map shownPart := by
  refine ⟨by rw [treeText, readJson_text]; rfl, ?_⟩
  replace h := (C77_tree_exact short n n').1 h
  induction h with
  | @junction b b' l r l' r' _ _ ih ih' =>
    have e : ∀ b l r, comparisons (junction b l r) = comparisons l ++ comparisons r := by
      intro b l r; cases b <;> rfl
    simp only [e, List.map_append, ih, ih']
  | not _ ih => exact ih
  | subdoc _ ih => exact ih
  | expr h => simp [comparisons, shownPart, h]

/-- The object has exactly these names, in any order, and under the name `k` the value `v`. -/
def Spec.Under (j : JOut) (names : List Str) (k : Str) (v : JOut) : Prop :=
  ∃ ms, j = .obj ms ∧ (ms.map Prod.fst).Perm names ∧ names.Nodup ∧ (k, v) ∈ ms

/-- The place is written as four numbers. -/
def Spec.PlaceWrittenAs (j : JOut) (p : Pos) : Prop :=
  let names := ["column".toList, "length".toList, "line".toList, "offset".toList]
  Under j names "line".toList (.num p.line) ∧ Under j names "column".toList (.num p.col) ∧
    Under j names "offset".toList (.num p.offset) ∧ Under j names "length".toList (.num p.len)

/-- How a tree is written: what joins two clauses is not named, and of the values only their number is left, or
null if there are none. -/
def Spec.WrittenAs : Node → JOut → Prop
  | .and l r, j => (∃ a, Under j ["Left".toList, "Right".toList] "Left".toList a ∧ WrittenAs l a) ∧
      ∃ b, Under j ["Left".toList, "Right".toList] "Right".toList b ∧ WrittenAs r b
  | .or l r, j => (∃ a, Under j ["Left".toList, "Right".toList] "Left".toList a ∧ WrittenAs l a) ∧
      ∃ b, Under j ["Left".toList, "Right".toList] "Right".toList b ∧ WrittenAs r b
  | .not e, j => ∃ a, Under j ["Expr".toList] "Expr".toList a ∧ WrittenAs e a
  | .subdoc f e, j => Under j ["Expr".toList, "Field".toList] "Field".toList (.arr (f.map .str)) ∧
      ∃ a, Under j ["Expr".toList, "Field".toList] "Expr".toList a ∧ WrittenAs e a
  | .expr op f vs p, j =>
      let names := ["Field".toList, "Op".toList, "Position".toList, "RVals".toList]
      Under j names "Op".toList (.str (opSign op)) ∧ Under j names "Field".toList (.arr (f.map .str)) ∧
        (vs = [] → Under j names "RVals".toList .null) ∧
        (vs ≠ [] → Under j names "RVals".toList (.arr (List.replicate vs.length (.obj [])))) ∧
        ∃ a, Under j names "Position".toList a ∧ PlaceWrittenAs a p

theorem opSign_op (op : Op) : op.text = opSign op := by cases op <;> rfl

/-- **C77, format.** The printed tree, read as JSON, has for each node an object with these names and values. -/
theorem C77_tree_format (n : Node) : ∃ j, readJson (treeText short n) = some j ∧ WrittenAs n j := by
  refine ⟨n.json, by rw [treeText, readJson_text], ?_⟩
  induction n with
  | and l r ihl ihr =>
    exact ⟨⟨_, ⟨_, rfl, .refl _, by decide, by simp⟩, ihl⟩, ⟨_, ⟨_, rfl, .refl _, by decide, by simp⟩, ihr⟩⟩
  | or l r ihl ihr =>
    exact ⟨⟨_, ⟨_, rfl, .refl _, by decide, by simp⟩, ihl⟩, ⟨_, ⟨_, rfl, .refl _, by decide, by simp⟩, ihr⟩⟩
  | not e ih => exact ⟨_, ⟨_, rfl, .refl _, by decide, by simp⟩, ih⟩
  | subdoc f e ih =>
    exact ⟨⟨_, rfl, .swap _ _ _, by decide, by simp [jsonField]⟩, ⟨_, ⟨_, rfl, .swap _ _ _, by decide, by simp⟩, ih⟩⟩
  | expr op f vs p =>
    have h : ∀ {k v}, (k, v) ∈ [("Op".toList, .str op.text), ("Field".toList, jsonField f),
        ("RVals".toList, jsonVals vs), ("Position".toList, p.json)] →
        Under (Node.expr op f vs p).json ["Field".toList, "Op".toList, "Position".toList, "RVals".toList] k v :=
      fun h => ⟨_, rfl, by dsimp only [List.map]; decide, by decide, h⟩
    have g : ∀ {k v}, (k, v) ∈ [("line".toList, JOut.num p.line), ("column".toList, .num p.col),
        ("offset".toList, .num p.offset), ("length".toList, .num p.len)] →
        Under p.json ["column".toList, "length".toList, "line".toList, "offset".toList] k v :=
      fun h => ⟨_, rfl, by dsimp only [List.map]; decide, by decide, h⟩
    refine ⟨h (by simp [opSign_op]), h (by simp [jsonField]), ?_, ?_, p.json, h (by simp), ⟨g (by simp), g (by simp), g (by simp), g (by simp)⟩⟩
    · rintro rfl
      exact h (by simp [jsonVals])
    · intro hv
      refine h ?_
      have : jsonVals vs = .arr (List.replicate vs.length (.obj [])) := by
        cases vs with
        | nil => exact (hv rfl).elim
        | cons v vs => simp only [jsonVals, List.map_const']
      simp [this]

/-- The text of the tree that the page shows for a query, if it shows one. -/
def pageTree (E : Env) (short : Bool) (s : Str) : Option Str :=
  match pWrap E (utf8 s) with
  | some (.ok (some n, _)) => some (treeText short n)
  | _ => none

/-- **C77, refuted.** Queries with different answers are shown as the same tree. -/
theorem C77_tree_refuted :
    (∃ t, pageTree testEnv false "a:1 AND b:2".toList = some t ∧ pageTree testEnv false "a:1 OR  b:2".toList = some t ∧
      pageTree testEnv false "a:1 AND b:3".toList = some t) ∧
    answerOf testEnv "a:1 AND b:2".toList (.obj [("a".toList, .num "1".toList), ("b".toList, .num "3".toList)]) = some false ∧
    answerOf testEnv "a:1 OR  b:2".toList (.obj [("a".toList, .num "1".toList), ("b".toList, .num "3".toList)]) = some true ∧
    answerOf testEnv "a:1 AND b:3".toList (.obj [("a".toList, .num "1".toList), ("b".toList, .num "3".toList)]) = some true := by
  refine ⟨⟨(pageTree testEnv false "a:1 AND b:2".toList).getD [], ?_, ?_, ?_⟩, ?_, ?_, ?_⟩ <;> decide +kernel

end Aql
