import Verif.Proofs.MatchReads
import Verif.Props.Texts
/-!
Property C112: what `Match` reads of the document (jsonmatcher/json_values.go, jsonmatcher/nodes.go).
-/

namespace Aql

open Spec

variable {E : Env}

/-- The count is that of a run with the same answer as `Match`. -/
theorem C112_same_answer (m : Matcher) (d : Json) :
    (m.match E (.valid d)).2 = match (m.root.cost E d).2 with | .ok b => .result b | .error e => .panic e := by
  rw [cost_result m.root d [], Matcher.match]
  rcases m.root.result E d [] with ⟨ts, e | b⟩ <;> rfl

theorem mapGo_length {α β : Type} {f : α → GoM β} : ∀ {xs : List α} {ys : List β}, mapGo f xs = .ok ys → ys.length = xs.length
  | [], ys, h => by cases h; rfl
  | x :: xs, ys, h => by
    rw [mapGo] at h
    cases hx : f x with
    | error e => rw [hx] at h; cases h
    | ok y =>
      rw [hx] at h
      cases hs : mapGo f xs with
      | error e => simp only [hs] at h; cases h
      | ok zs => simp only [hs] at h; cases h; simp [mapGo_length hs]

theorem buildExprs_length {op : Op} {vs : List Val} {es : List FieldExpr} (h : buildExprs E op vs = .ok es) :
    es.length ≤ vs.length + 1 := by
  have one : ∀ {x : GoM FieldExpr}, x.map ([·]) = .ok es → es.length ≤ vs.length + 1 := by
    intro x hx
    cases x with
    | error e => cases hx
    | ok v => cases hx; simp
  have eq : exprEQ E vs = .ok es → es.length ≤ vs.length + 1 := by
    intro hx
    unfold exprEQ at hx
    split at hx
    · cases hx
    · rw [mapGo_length hx]; omega
  cases op <;> simp only [buildExprs] at h <;> first | exact one h | exact eq h | (cases h; simp)

/-- Matching reads of the document at most twice its size for every connective, comparison, name and literal. -/
theorem C112_tree {root : Node} {b : BoolNode} (h : build E root = .ok b) {d : Json}
    (hp : PathsIn (fun f => f = [] ∨ Plain d f) root) : (b.cost E d).1 ≤ 2 * querySize root * d.weight := by
  have hw := weight_pos d
  induction root generalizing b with
  | and l r ihl ihr =>
    rw [build] at h
    cases hl : build E l with
    | error e => rw [hl] at h; cases h
    | ok l' =>
      rw [hl] at h
      cases hr : build E r with
      | error e => simp only [hr] at h; cases h
      | ok r' =>
        simp only [hr] at h
        cases h
        have h1 := ihl hl hp.1
        have h2 := ihr hr hp.2
        have e : 2 * querySize (.and l r) * d.weight = 2 * querySize l * d.weight + 2 * querySize r * d.weight + 2 * d.weight := by
          rw [querySize]; ring
        rw [e, BoolNode.cost]
        rcases hc : l'.cost E d with ⟨n1, er | _ | _⟩ <;> rw [hc] at h1 <;> dsimp only at * <;> omega
  | or l r ihl ihr =>
    rw [build] at h
    cases hl : build E l with
    | error e => rw [hl] at h; cases h
    | ok l' =>
      rw [hl] at h
      cases hr : build E r with
      | error e => simp only [hr] at h; cases h
      | ok r' =>
        simp only [hr] at h
        cases h
        have h1 := ihl hl hp.1
        have h2 := ihr hr hp.2
        have e : 2 * querySize (.or l r) * d.weight = 2 * querySize l * d.weight + 2 * querySize r * d.weight + 2 * d.weight := by
          rw [querySize]; ring
        rw [e, BoolNode.cost]
        rcases hc : l'.cost E d with ⟨n1, er | _ | _⟩ <;> rw [hc] at h1 <;> dsimp only at * <;> omega
  | not n ih =>
    rw [build] at h
    cases hl : build E n with
    | error e => rw [hl] at h; cases h
    | ok l' =>
      rw [hl] at h
      cases h
      have h1 := ih hl hp
      have e : 2 * querySize (.not n) * d.weight = 2 * querySize n * d.weight + 2 * d.weight := by
        rw [querySize]; ring
      rw [e, BoolNode.cost]
      rcases hc : l'.cost E d with ⟨n1, er | _⟩ <;> rw [hc] at h1 <;> dsimp only at * <;> omega
  | subdoc f n ih =>
    cases h
    have e : 2 * querySize (.subdoc f n) * d.weight = 2 * querySize n * d.weight + 2 * d.weight := by
      rw [querySize]; ring
    rw [e, BoolNode.cost]
    omega
  | expr op f vs pos =>
    rw [build] at h
    cases hb : buildExprs E op vs with
    | error e => rw [hb] at h; cases h
    | ok es =>
      rw [hb] at h
      cases h
      have hl := buildExprs_length hb
      rw [BoolNode.cost, querySize]
      rcases hp with rfl | hp
      · rw [exprCost, getObjectCost]
        dsimp only
        have e : 2 * (([] : List Str).length + vs.length + 2) * d.weight = 2 * vs.length * d.weight + 4 * d.weight := by
          simp only [List.length_nil]; ring
        omega
      · have h1 := exprCost_le (E := E) (exprs := es) hp
        have h2 := Nat.mul_le_mul_right d.weight (show 2 * (f.length + es.length) ≤ 2 * (f.length + vs.length + 1) by omega)
        have e : 2 * (f.length + vs.length + 2) * d.weight = 2 * (f.length + vs.length + 1) * d.weight + 2 * d.weight := by
          ring
        dsimp only
        omega

/-! ### exactly -/

/-- Where the values of a path are found, without the order of the search. -/
theorem C112_values {path : List Str} (h : path ≠ []) (ms : List (Str × Json)) :
    getObject E path (.obj ms) =
      .ok ((objectsAt E (.obj ms) path.dropLast).filterMap (leadsTo E (path.getLastD []))) :=
  getObject_finals path h ms

/-- What is read to find them: for every name the members up to it in all objects at that point, and the arrays on
the way. -/
theorem C112_search {path : List Str} (h : path ≠ []) (ms : List (Str × Json)) :
    (getObjectCost E path (.obj ms)).1 = searchReads E Json.weight (.obj ms) path := by
  rw [searchReads_eq]
  exact (getObjectCost_exact path h ms).1

/-- Matching reads exactly what the checked nodes read, each once: what the statistics count. -/
theorem C112_exact {b : BoolNode} {ms : List (Str × Json)} {ts : List Tick} {r : Bool}
    (h : b.result E (.obj ms) [] = (ts, .ok r)) : (b.cost E (.obj ms)).1 = checkedReads E (.obj ms) b ts :=
  tree_exact b b [] (by cases b <;> rfl) ts r h

/-- `a.b:>1` on `{"a":[{"b":0},{"b":2}]}`: 16 for `a`, 13 for the array, 5 for each `b`, 1 for each value
listed, 2 for each number compared, 1 for the node. The answer is yes. -/
example :
    let d := Json.obj [(['a'], .arr [.obj [(['b'], .num ['0'])], .obj [(['b'], .num ['2'])]])]
    searchReads testEnv Json.weight d [['a']] = 16 ∧ searchReads testEnv Json.weight d [['a'], ['b']] = 39 ∧
    (objectsAt testEnv d [['a']]).filterMap (leadsTo testEnv ['b']) = [.num ['0'], .num ['2']] ∧
    ∃ b, build testEnv (.expr .GT [['a'], ['b']] [.int 1 ['1'] noPosition] noPosition) = .ok b ∧
      b.result testEnv d [] = ([.checked [], .matched []], .ok true) ∧
      checkedReads testEnv d b [.checked [], .matched []] = 46 :=
  ⟨by decide +kernel, by decide +kernel, rfl, _, rfl, by decide +kernel, by decide +kernel⟩

/-! ### texts -/

theorem path_size {p : Str} {xs : List Str} (h : Path E p xs) : xs.length ≤ p.length := by
  induction h with
  | one hp =>
    cases hp with
    | bare h _ => exact List.length_pos_iff.2 h
    | _ => simp
  | cons hp _ ih => simp; omega

theorem lit_size {t : Str} {v : Val} (h : Lit E [] t v) : 1 ≤ t.length := by
  obtain ⟨c, u, rfl, -⟩ := lit_cons h
  simp

theorem laidItems_size {ls : List (Str × Val)} {s : Str} (h : LaidItems E ls s) : ls.length ≤ s.length := by
  induction h with
  | one hl => simpa using lit_size hl
  | cons hl _ _ _ ih => simp; omega

theorem laidValues_size {ls : List (Str × Val)} {s : Str} (h : LaidValues E ls s) : ls.length ≤ s.length := by
  cases h with
  | one hl => simpa using lit_size hl
  | list _ _ hi _ =>
    have := laidItems_size hi
    simp
    omega

theorem withoutStars_length (xs : List Str) : (withoutStars xs).length ≤ xs.length := List.length_filter_le _ _

theorem laid_size {l : Level} {c : Cst} {s : Str} (h : Laid E l c s) : querySize c.tree ≤ 2 * s.length := by
  induction h with
  | noArgs hp ho _ _ =>
    have h1 := path_size hp
    have h2 := withoutStars_length ‹_›
    simp [Cst.tree, querySize] at *
    omega
  | @compare p xs o op ls w1 w2 w3 s hp _ hv _ _ _ =>
    have h1 := path_size hp
    have h2 := withoutStars_length xs
    have h3 := laidValues_size hv
    simp [Cst.tree, querySize] at *
    omega
  | group _ _ _ ih => simp [Cst.tree] at *; omega
  | word _ _ ih => simp [Cst.tree, querySize] at *; omega
  | bang _ _ ih => simp [Cst.tree, querySize] at *; omega
  | and _ _ _ _ ihl ihr => simp [Cst.tree, querySize] at *; omega
  | or _ _ _ _ ihl ihr => simp [Cst.tree, querySize] at *; omega
  | cmpNot _ ih => exact ih
  | notAnd _ ih => exact ih
  | andOr _ ih => exact ih

theorem laidOut_size {c : Cst} {s : Str} (h : LaidOut E c s) : querySize c.tree ≤ 2 * s.length := by
  obtain ⟨w1, q, w2, -, -, hl, rfl⟩ := h
  have := laid_size hl
  simp
  omega

theorem pathsIn_all {P : List Str → Prop} (h : ∀ f, P f) (n : Node) : PathsIn P n := by
  induction n <;> simp_all [PathsIn]

theorem plain_or_nil {d : Json} (h : ∀ xs, d ≠ .arr xs) (f : List Str) : f = [] ∨ Plain d f := by
  cases f with
  | nil => exact .inl rfl
  | cons k rest => exact .inr ⟨k, rest, rfl, fun ⟨xs, hx⟩ => absurd hx (h xs)⟩

/-- A compiled query reads at most four times the length of its text times the size of the document. -/
theorem C112_match_cost {c : Cst} {s : Str} (hc : LaidOut E c s) {m : Matcher} {ms : List Msg}
    (h : newMatcher E (utf8 s) = some (.ok (.ok (m, ms)))) {d : Json} (hd : ∀ xs, d ≠ .arr xs) :
    (m.root.cost E d).1 ≤ 4 * s.length * d.weight := by
  obtain ⟨hb, -, -⟩ := root_of_text hc h
  refine Nat.le_trans (C112_tree hb (pathsIn_all (plain_or_nil hd) _)) (Nat.mul_le_mul_right _ ?_)
  have := laidOut_size hc
  omega

/-! ### the product is needed -/

/-- Objects inside each other. -/
def nested : Nat → Json
  | 0 => .null
  | n + 1 => .obj [(['a'], nested n)]

theorem nested_weight (n : Nat) : (nested n).weight = 3 * n + 1 := by
  induction n with
  | zero => rfl
  | succ n ih => simp only [nested, Json.weight, Json.weightMembers, ih, List.length_singleton]; omega

theorem nested_cost (h : E.unescape ['a'] = some ['a']) :
    ∀ n, n * n ≤ (getObjectCost E (List.replicate n ['a']) (nested n)).1
  | 0 => Nat.le_refl _
  | n + 1 => by
    have ih := nested_cost h n
    have hg : jsonGet E (nested (n + 1)) ['a'] = .ok (some (nested n)) := by simp [nested, jsonGet, getMember, h]
    have hcost : getCost E (nested (n + 1)) ['a'] = 3 * n + 4 := by
      simp [nested, getCost, memberCost, h, nested_weight]; omega
    rw [List.replicate_succ, getObjectCost, hg]
    have e : (n + 1) * (n + 1) = n * n + 2 * n + 1 := by ring
    cases n with
    | zero => simp [hcost]
    | succ n =>
      rw [List.replicate_succ] at *
      dsimp only
      rw [hcost, show nested (n + 1) = .obj [(['a'], nested n)] from rfl] at *
      dsimp only
      omega

/-- No bound by the sum of the sizes: a path of `n` names in `n` objects inside each other costs the square. -/
theorem C112_product_needed (h : E.unescape ['a'] = some ['a']) (n : Nat) (pos : Pos) :
    ∃ b, build E (.expr .EXS (List.replicate n ['a']) [] pos) = .ok b ∧ n * n ≤ (b.cost E (nested n)).1 ∧
      querySize (.expr .EXS (List.replicate n ['a']) [] pos) = n + 2 ∧ (nested n).weight = 3 * n + 1 := by
  refine ⟨_, rfl, ?_, by simp [querySize], nested_weight n⟩
  have := nested_cost h n
  rw [BoolNode.cost, exprCost]
  rcases hg : getObjectCost E (List.replicate n ['a']) (nested n) with ⟨k, e | vs⟩ <;> rw [hg] at this
  · dsimp only at *; omega
  · dsimp only at *
    split <;> dsimp only <;> omega

/-- `a.b:>1` on `{"a":[{"b":0},{"b":2}]}`: 46 against a bound of `4 * 6 * 16`, and of `2 * 5 * 16` from the tree. -/
example :
    let d := Json.obj [(['a'], .arr [.obj [(['b'], .num ['0'])], .obj [(['b'], .num ['2'])]])]
    ∃ b, build testEnv (.expr .GT [['a'], ['b']] [.int 1 ['1'] noPosition] noPosition) = .ok b ∧
      (b.cost testEnv d).1 = 46 ∧ d.weight = 16 :=
  ⟨_, rfl, by decide +kernel, by decide +kernel⟩

/-- A text that `C112_match_cost` speaks of: it is read, and compiled. -/
example : Path testEnv "a".toList ["a".toList] ∧ NoArgOp "exists".toList .EXS ∧ testEnv.unescape ['a'] = some ['a'] ∧
    answerOf testEnv "a:exists".toList (nested 2) = some true :=
  ⟨.one (piece_ascii "a".toList (by decide)), .exists_, rfl, by decide +kernel⟩

end Aql
