import Verif.Proofs.Layout
import Verif.Proofs.Visitors
/-!
`NewMatcher` in closed form, and its independence of positions.
-/

namespace Aql

open Spec

variable (E : Env)

/-- Messages of the comparisons from left to right, up to the first error. -/
def msgRun : List Node → List Msg × Option VErr
  | [] => ([], none)
  | n :: ns =>
    match messageVisitorFn E n with
    | (ms, some e) => (ms, some e)
    | (ms, none) => (ms ++ (msgRun ns).1, (msgRun ns).2)

theorem msgRun_append (xs ys : List Node) : msgRun E (xs ++ ys) =
    match msgRun E xs with
    | (ms, some e) => (ms, some e)
    | (ms, none) => (ms ++ (msgRun E ys).1, (msgRun E ys).2) := by
  induction xs with
  | nil => rfl
  | cons n xs ih =>
    simp only [List.cons_append, msgRun]
    rcases messageVisitorFn E n with ⟨ms, _ | e⟩
    · simp only [ih]
      rcases msgRun E xs with ⟨ms', _ | e'⟩ <;> simp
    · rfl

theorem msgRun_preorder (n : Node) : msgRun E ((preorder n).map Prod.fst) = msgRun E (comparisons n) := by
  induction n with
  | and l r ihl ihr =>
    simp only [preorder, comparisons, List.map_cons, List.map_append, msgRun, messageVisitorFn,
      msgRun_append, ihl, ihr, List.nil_append]
  | or l r ihl ihr =>
    simp only [preorder, comparisons, List.map_cons, List.map_append, msgRun, messageVisitorFn,
      msgRun_append, ihl, ihr, List.nil_append]
  | not e ih =>
    simp only [preorder, comparisons, List.map_cons, msgRun, messageVisitorFn, ih, List.nil_append]
  | subdoc f e ih =>
    simp only [preorder, comparisons, List.map_cons, msgRun, messageVisitorFn, ih, List.nil_append]
  | expr op f vs pos => rfl

theorem messageVisitorFn_err (n : Node) : (messageVisitorFn E n).2 = none ∨
    ∃ m, (messageVisitorFn E n).2 = some (.other m) := by
  cases n with
  | expr op f vs pos =>
    simp only [messageVisitorFn]
    induction vs with
    | nil => exact Or.inl rfl
    | cons v vs ih =>
      have hv : (valMessages E op f v).2 = none ∨
          ∃ m, (valMessages E op f v).2 = some (.other m) := by
        cases v with
        | regex sv src pos =>
          simp only [valMessages]
          split
          · exact Or.inr ⟨_, rfl⟩
          · exact Or.inl rfl
        | _ => exact Or.inl rfl
      simp only [exprMessages]
      rcases hm : valMessages E op f v with ⟨ms, _ | e⟩
      · exact ih
      · rw [hm] at hv
        rcases hv with h | ⟨m, h⟩
        · cases h
        · exact Or.inr ⟨m, by simpa using h⟩
  | _ => exact Or.inl rfl

/-- The state after the message visitor. -/
def afterMsgs (s : VState Unit) (ms : List Msg) : VState Unit :=
  ⟨s.user, fun i => if i = 0 then (s.tapes i).addMsgs ms else s.tapes i⟩

theorem afterMsgs_append (s : VState Unit) (a b : List Msg) :
    afterMsgs (afterMsgs s a) b = afterMsgs s (a ++ b) := by
  unfold afterMsgs
  congr 1
  funext i
  by_cases h : i = 0
  · subst h; simp [Tape.addMsgs, List.foldl_append]
  · simp [h]

theorem afterMsgs_nil (s : VState Unit) : afterMsgs s [] = s := by
  unfold afterMsgs Tape.addMsgs
  simp

theorem message_runList (xs : List (Node × Nat)) (s : VState Unit) :
    runList (messageVisitor E).visit 0 s xs =
      .ok (afterMsgs s (msgRun E (xs.map Prod.fst)).1, (msgRun E (xs.map Prod.fst)).2) := by
  induction xs generalizing s with
  | nil => simp [runList, msgRun, afterMsgs_nil]
  | cons x xs ih =>
    obtain ⟨n, below⟩ := x
    have hk := messageVisitorFn_err E n
    have hv : (messageVisitor E).visit s n = .ok (afterMsgs s (messageVisitorFn E n).1, (messageVisitorFn E n).2) := by
      simp only [messageVisitor, Visitor.visit, afterMsgs]
    rw [runList, hv]
    simp only [List.map_cons, msgRun]
    rcases hm : messageVisitorFn E n with ⟨ms, _ | e⟩
    · dsimp only
      rw [ih, afterMsgs_append]
    · rw [hm] at hk
      rcases hk with h | ⟨m, h⟩
      · cases h
      · simp only [Option.some.injEq] at h
        subst h
        rfl

/-- `NewMatcher` in closed form: validation, messages, construction. -/
theorem newMatcherFrom_eq (q : Str) (root : Node) : newMatcherFrom E q (.ok root) =
    match (comparisons root).findSome? (verdict E) with
    | some e => .ok (.error e)
    | none =>
      match msgRun E (comparisons root) with
      | (_, some e) => .ok (.error e.toPErr)
      | (ms, none) =>
        match build E root with
        | .error p => .error p
        | .ok b => .ok (.ok (⟨b, q, Counters.zero⟩, ms)) := by
  unfold newMatcherFrom
  rw [finishParse_eq]
  cases (comparisons root).findSome? (verdict E) with
  | some e => rfl
  | none =>
    simp only [runVisitors, walk_runList, message_runList, msgRun_preorder]
    rcases msgRun E (comparisons root) with ⟨ms, _ | e⟩
    · simp only [messageVisitor, Visitor.tapeErr]
      have h1 : ((afterMsgs ⟨(), fun _ => Tape.new⟩ ms).tapes 0).firstErr = none := by
        simp only [afterMsgs, if_true]
        exact Tape.addMsgs_firstErr _ _ rfl
      have h2 : ((afterMsgs ⟨(), fun _ => Tape.new⟩ ms).tapes 0).messages = ms := by
        simp only [afterMsgs, if_true]
        rw [Tape.addMsgs_messages]; rfl
      simp only [h1, Option.map_none, h2]
      cases build E root <;> rfl
    · rfl

/-! ### positions -/

variable {E}

theorem toStr_unplaced (v : Val) : (unplaced v).toStr E = v.toStr E := by cases v <;> rfl

theorem type_unplaced (v : Val) : (unplaced v).type = v.type := by cases v <;> rfl

theorem numOrZero_unplaced (v : Val) : numOrZero (unplaced v) = numOrZero v := by cases v <;> rfl

theorem map_toStr_unplaced (vs : List Val) : (vs.map unplaced).map (Val.toStr E) = vs.map (Val.toStr E) := by
  simp [List.map_map, Function.comp_def, toStr_unplaced]

theorem joinVals_unplaced (sep : Str) (vs : List Val) : joinVals E sep (vs.map unplaced) = joinVals E sep vs := by
  induction vs with
  | nil => rfl
  | cons v vs ih =>
    cases vs with
    | nil => simp [joinVals, toStr_unplaced]
    | cons w vs =>
      simp only [List.map_cons, joinVals, toStr_unplaced] at ih ⊢
      rw [ih]

theorem friendly_unplaced (op : Op) (f : List Str) (vs : List Val) :
    friendlyString E op f (vs.map unplaced) = friendlyString E op f vs := by
  unfold friendlyString
  congr 1
  match vs with
  | [] => rfl
  | [v] => simp [toStr_unplaced]
  | v :: w :: vs =>
    have := joinVals_unplaced (E := E) ",".toList (v :: w :: vs)
    simp only [List.map_cons] at this ⊢
    rw [this]

theorem betweenConst_unplaced (v : Val) : betweenConst (unplaced v) = betweenConst v := by cases v <;> rfl

theorem eqMatcher_unplaced (v : Val) : eqMatcher E (unplaced v) = eqMatcher E v := by cases v <;> rfl

theorem mapGo_map {α β γ : Type} (f : β → GoM γ) (g : α → β) (xs : List α) :
    mapGo f (xs.map g) = mapGo (fun x => f (g x)) xs := by
  induction xs with
  | nil => rfl
  | cons x xs ih => simp only [List.map_cons, mapGo, ih]

theorem exprEQ_unplaced (vs : List Val) : exprEQ E (vs.map unplaced) = exprEQ E vs := by
  cases vs with
  | nil => rfl
  | cons v vs =>
    have := mapGo_map (eqMatcher E) unplaced (v :: vs)
    simp only [eqMatcher_unplaced] at this
    exact this

theorem exprNumeric_unplaced (op : Op) (vs : List Val) : exprNumeric op (vs.map unplaced) = exprNumeric op vs := by
  match vs with
  | [] => rfl
  | [v] => cases v <;> rfl
  | v :: w :: vs =>
    simp only [List.map_cons]
    cases v <;> rfl

theorem exprBetween_unplaced (vs : List Val) : exprBetween (vs.map unplaced) = exprBetween vs := by
  match vs with
  | [] => rfl
  | [v] => rfl
  | [a, b] => cases a <;> cases b <;> rfl
  | a :: b :: c :: vs => rfl

theorem buildExprs_unplaced (op : Op) (vs : List Val) : buildExprs E op (vs.map unplaced) = buildExprs E op vs := by
  cases op <;> simp only [buildExprs, exprNumeric_unplaced, exprBetween_unplaced, exprEQ_unplaced]

/-- Positions do not matter to the builder. -/
theorem build_bare (n : Node) : build E (bare n) = build E n := by
  induction n with
  | and l r ihl ihr => simp only [bare, build, ihl, ihr]
  | or l r ihl ihr => simp only [bare, build, ihl, ihr]
  | not e ih => simp only [bare, build, ih]
  | subdoc f e ih => rfl
  | expr op f vs pos => simp only [bare, build, buildExprs_unplaced, friendly_unplaced]

theorem comparisons_bare (n : Node) : comparisons (bare n) = (comparisons n).map bare := by
  induction n with
  | and l r ihl ihr => simp only [bare, comparisons, ihl, ihr, List.map_append]
  | or l r ihl ihr => simp only [bare, comparisons, ihl, ihr, List.map_append]
  | not e ih => simp only [bare, comparisons, ih]
  | subdoc f e ih => simp only [bare, comparisons, ih]
  | expr op f vs pos => rfl

theorem mustBeOneOf_unplaced (ts : List ValType) (vs : List Val) :
    mustBeOneOf ts (vs.map unplaced) = (mustBeOneOf ts vs).map unplaced := by
  induction vs with
  | nil => rfl
  | cons v vs ih =>
    simp only [List.map_cons, mustBeOneOf, type_unplaced, ih]
    split <;> rfl

/-- An error without its position. -/
def PErr.bare (e : PErr) : PErr := ⟨noPosition, e.msg⟩

theorem checkValues_unplaced (op : Op) (vs : List Val) :
    (checkValues op (vs.map unplaced)).map PErr.bare = (checkValues op vs).map PErr.bare := by
  have h : ∀ ts (m : Str), (((mustBeOneOf ts (vs.map unplaced)).map fun v => (⟨v.pos, m⟩ : PErr))).map PErr.bare =
      ((mustBeOneOf ts vs).map fun v => (⟨v.pos, m⟩ : PErr)).map PErr.bare := by
    intro ts m
    rw [mustBeOneOf_unplaced]
    cases mustBeOneOf ts vs <;> rfl
  cases op <;> simp only [checkValues, h, Option.map_none]

theorem checkArity_unplaced (op : Op) (vs : List Val) (p q : Pos) :
    (checkArity op (vs.map unplaced) p).map PErr.bare = (checkArity op vs q).map PErr.bare := by
  cases op <;> simp only [checkArity, List.length_map] <;> split <;> rfl

theorem checkRValsLoop_unplaced (op : Op) (n : Nat) (seen : List Str) (i : Nat) (vs : List Val) :
    (checkRValsLoop E op n seen i (vs.map unplaced)).map PErr.bare =
      (checkRValsLoop E op n seen i vs).map PErr.bare := by
  induction vs generalizing seen i with
  | nil => rfl
  | cons v vs ih =>
    simp only [List.map_cons, checkRValsLoop, toStr_unplaced]
    split
    · rfl
    · split
      · rfl
      · exact ih _ _

theorem checkBetween_unplaced (op : Op) (vs : List Val) :
    (checkBetween op (vs.map unplaced)).map (Option.map PErr.bare) =
      (checkBetween op vs).map (Option.map PErr.bare) := by
  have key : ∀ (c : Prop) [Decidable c] (p q : Pos) (m : Str),
      (if c then some ⟨p, m⟩ else none : Option PErr).map PErr.bare =
      (if c then some ⟨q, m⟩ else none : Option PErr).map PErr.bare := by
    intro c _ p q m
    split <;> rfl
  unfold checkBetween
  split
  · rfl
  · match vs with
    | [] => rfl
    | [v] => rfl
    | a :: b :: vs =>
      simp only [List.map_cons]
      cases a <;> cases b <;> first | rfl | exact congrArg Except.ok (key _ _ _ _)

theorem validateExpr_unplaced (op : Op) (vs : List Val) (p q : Pos) :
    (validateExpr E op (vs.map unplaced) p).map (Option.map PErr.bare) =
      (validateExpr E op vs q).map (Option.map PErr.bare) := by
  have h1 := checkValues_unplaced op vs
  have h2 := checkArity_unplaced op vs p q
  have h3 : (checkRVals E op (vs.map unplaced)).map PErr.bare = (checkRVals E op vs).map PErr.bare := by
    simp only [checkRVals, List.length_map]
    split
    · rfl
    · exact checkRValsLoop_unplaced _ _ _ _ _
  have h4 := checkBetween_unplaced op vs
  unfold validateExpr
  rcases e1 : checkValues op (vs.map unplaced) with _ | a <;> rcases e1' : checkValues op vs with _ | a' <;>
    rw [e1, e1'] at h1 <;> try cases h1
  · rcases e2 : checkArity op (vs.map unplaced) p with _ | a <;> rcases e2' : checkArity op vs q with _ | a' <;>
      rw [e2, e2'] at h2 <;> try cases h2
    · rcases e3 : checkRVals E op (vs.map unplaced) with _ | a <;> rcases e3' : checkRVals E op vs with _ | a' <;>
        rw [e3, e3'] at h3 <;> try cases h3
      · exact h4
      · simp only [Option.map_some, Option.some.injEq] at h3
        simp only [Except.map, Option.map_some, h3]
    · simp only [Option.map_some, Option.some.injEq] at h2
      simp only [Except.map, Option.map_some, h2]
  · simp only [Option.map_some, Option.some.injEq] at h1
    simp only [Except.map, Option.map_some, h1]

theorem verdict_bare (n : Node) : (verdict E (bare n)).map PErr.bare = (verdict E n).map PErr.bare := by
  cases n with
  | expr op f vs pos =>
    have h := validateExpr_unplaced (E := E) op vs noPosition pos
    have h1 := opValidator_verdict E (bare (.expr op f vs pos))
    have h2 := opValidator_verdict E (.expr op f vs pos)
    simp only [bare, opValidator] at h1 h2
    rw [h1, h2] at h
    simpa [Except.map, bare] using h
  | _ => rfl

theorem verdicts_bare (n : Node) : ((comparisons (bare n)).findSome? (verdict E)).map PErr.bare =
    ((comparisons n).findSome? (verdict E)).map PErr.bare := by
  rw [comparisons_bare]
  generalize comparisons n = xs
  induction xs with
  | nil => rfl
  | cons x xs ih =>
    have h := verdict_bare (E := E) x
    simp only [List.map_cons, List.findSome?_cons]
    rcases e1 : verdict E (bare x) with _ | a <;> rcases e2 : verdict E x with _ | b <;> rw [e1, e2] at h
    · exact ih
    · cases h
    · cases h
    · exact h

/-- A message without its position. -/
def Msg.bare (m : Msg) : Msg := ⟨m.type, noPosition, m.text⟩

theorem reHints_bare (f : List Str) (src : Str) (p q : Pos) (reg : ReSyn) :
    (reHints E f src p reg).map Msg.bare = (reHints E f src q reg).map Msg.bare := by
  unfold reHints
  dsimp only
  generalize (if (reg.subs.length == 1 && reg.op == opCapture) = true then reg.subs.headD reg else reg) = reg'
  simp only [List.map_append, apply_ite (List.map Msg.bare), List.map_cons, List.map_nil, Msg.bare]

theorem valMessages_bare (op : Op) (f : List Str) (v : Val) :
    (valMessages E op f (unplaced v)).1.map Msg.bare = (valMessages E op f v).1.map Msg.bare ∧
      (valMessages E op f (unplaced v)).2 = (valMessages E op f v).2 := by
  cases v with
  | regex sv src pos =>
    simp only [unplaced, valMessages]
    cases E.reSyntax src with
    | none =>
      simp only [List.map_append, apply_ite (List.map Msg.bare), List.map_cons, List.map_nil, Msg.bare, and_self]
    | some reg =>
      simp only [List.map_append, apply_ite (List.map Msg.bare), List.map_cons, List.map_nil, Msg.bare, and_true]
      rw [← reHints_bare f src noPosition pos reg]
  | str sv pos => simp only [unplaced, valMessages]; split <;> exact ⟨rfl, trivial⟩
  | time sv t d pos => simp only [unplaced, valMessages]; split <;> exact ⟨rfl, trivial⟩
  | _ => exact ⟨rfl, rfl⟩

theorem messageVisitorFn_bare (n : Node) :
    (messageVisitorFn E (bare n)).1.map Msg.bare = (messageVisitorFn E n).1.map Msg.bare ∧
      (messageVisitorFn E (bare n)).2 = (messageVisitorFn E n).2 := by
  cases n with
  | expr op f vs pos =>
    simp only [bare, messageVisitorFn]
    induction vs with
    | nil => exact ⟨rfl, rfl⟩
    | cons v vs ih =>
      have h := valMessages_bare (E := E) op f v
      simp only [List.map_cons, exprMessages]
      rcases e1 : valMessages E op f (unplaced v) with ⟨a, _ | x⟩ <;>
        rcases e2 : valMessages E op f v with ⟨b, _ | y⟩ <;> rw [e1, e2] at h <;> obtain ⟨h1, h2⟩ := h
      · simp only [List.map_append] at h1 ⊢
        rw [h1, ih.1]
        exact ⟨rfl, ih.2⟩
      · cases h2
      · cases h2
      · exact ⟨h1, h2⟩
  | _ => exact ⟨rfl, rfl⟩

theorem msgRun_bare (n : Node) :
    (msgRun E (comparisons (bare n))).1.map Msg.bare = (msgRun E (comparisons n)).1.map Msg.bare ∧
      (msgRun E (comparisons (bare n))).2 = (msgRun E (comparisons n)).2 := by
  rw [comparisons_bare]
  generalize comparisons n = xs
  induction xs with
  | nil => exact ⟨rfl, rfl⟩
  | cons x xs ih =>
    have h := messageVisitorFn_bare (E := E) x
    simp only [List.map_cons, msgRun]
    rcases e1 : messageVisitorFn E (bare x) with ⟨a, _ | z⟩ <;>
      rcases e2 : messageVisitorFn E x with ⟨b, _ | y⟩ <;> rw [e1, e2] at h <;> obtain ⟨h1, h2⟩ := h
    · simp only [List.map_append] at h1 ⊢
      rw [h1, ih.1]
      exact ⟨rfl, ih.2⟩
    · cases h2
    · cases h2
    · exact ⟨h1, h2⟩

/-- What `NewMatcher` returns, without positions and the query text: an error text, or the compiled
tree and the messages. -/
def outcome : Except PErr (Matcher × List Msg) → Except PErr (BoolNode × List Msg)
  | .error e => .error e.bare
  | .ok (m, ms) => .ok (m.root, ms.map Msg.bare)

theorem newMatcherFrom_bare (q q' : Str) (n : Node) :
    (newMatcherFrom E q (.ok (bare n))).map outcome = (newMatcherFrom E q' (.ok n)).map outcome := by
  rw [newMatcherFrom_eq, newMatcherFrom_eq, build_bare]
  have h1 := verdicts_bare (E := E) n
  have h2 := msgRun_bare (E := E) n
  rcases e1 : (comparisons (bare n)).findSome? (verdict E) with _ | a <;>
    rcases e2 : (comparisons n).findSome? (verdict E) with _ | b <;> rw [e1, e2] at h1
  · rcases e3 : msgRun E (comparisons (bare n)) with ⟨a, _ | x⟩ <;>
      rcases e4 : msgRun E (comparisons n) with ⟨b, _ | y⟩ <;> rw [e3, e4] at h2 <;> obtain ⟨h3, h4⟩ := h2
    · dsimp only at h3 ⊢
      cases build E n with
      | error p => rfl
      | ok b => simp only [Except.map, outcome, h3]
    · cases h4
    · cases h4
    · cases h4; rfl
  · cases h1
  · cases h1
  · simp only [Option.map_some, Option.some.injEq] at h1
    simp only [Except.map, outcome, h1]

end Aql
