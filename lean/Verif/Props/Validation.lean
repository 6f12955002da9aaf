import Verif.Proofs.Visitors
/-!
Properties C12 - C17 and C57: validation, visitors, messages.
-/

namespace Aql

open Spec

variable (E : Env)

/-! ### C12 -/

/-- **C12.** The validation of a comparison always returns, and it accepts exactly when the typing
rules `ExprOk` hold: arity, operand types, values distinct as printed, not both booleans under
equality, ordered between operands. -/
theorem C12_validator_decides_typing (op : Op) (f : List Str) (vs : List Val) (pos : Pos) :
    ∃ r, opValidator E (.expr op f vs pos) = .ok r ∧ (r = none ↔ ExprOk E op vs) :=
  validateExpr_spec E op vs pos

-- the rules accept and reject concrete comparisons
example : ExprOk testEnv .LT [.int 5 "5".toList noPosition] := by
  refine ⟨rfl, ?_, by simp, by simp, by simp⟩
  intro v hv; simp at hv; subst hv; exact Or.inl rfl
example : ¬ ExprOk testEnv .LT [.str "x".toList noPosition] := by
  intro h; have := h.types _ (List.mem_singleton.2 rfl); simp [OperandOk, Val.type] at this
example : ¬ ExprOk testEnv .EQ [.bool true noPosition, .int 1 "1".toList noPosition,
    .bool false noPosition] := by
  intro h; exact h.noConflict rfl ⟨by simp [Val.toStr], by simp [Val.toStr]⟩

/-! ### C13 -/

/-- Both operands are numbers, the first below the second; or both datetimes, the first earlier. -/
def OneKind (a b : Val) : Prop :=
  (∃ l r, NumLit a l ∧ NumLit b r ∧ FLt l r) ∨
  (∃ sa ta da pa sb tb db pb, a = .time sa ta da pa ∧ b = .time sb tb db pb ∧ ta < tb)

/-- **C13, refuted.** In every environment `><(-5, 2020-01-01)` is accepted. -/
theorem C13_between_one_kind_refuted : ∃ a b pos,
    opValidator E (.expr .BET ["f".toList] [a, b] pos) = .ok none ∧ ¬ OneKind a b := by
  refine ⟨.int (-5) "-5".toList noPosition,
    .time "2020-01-01".toList 1577836800000000000 true noPosition, noPosition, ?_, ?_⟩
  · obtain ⟨r, hr, hi⟩ := C12_validator_decides_typing E .BET ["f".toList]
      [.int (-5) "-5".toList noPosition,
        .time "2020-01-01".toList 1577836800000000000 true noPosition] noPosition
    have : r = none := by
      refine hi.2 ⟨rfl, ?_, ?_, by simp, ?_⟩
      · intro v hv
        simp only [List.mem_cons, List.not_mem_nil, or_false] at hv
        rcases hv with rfl | rfl <;> simp [OperandOk, Val.type]
      · simp only [List.map_cons, List.map_nil, Val.toStr]; decide
      · intro a b _ h
        cases h
        refine Or.inr ⟨by simp [Val.type], toF64 (((-5 : Int) : ℚ)), .fin 0, Or.inl .int,
          Or.inr ⟨fun c hc => (nomatch hc), rfl⟩, ?_⟩
        rw [← F64.le_iff]
        decide +kernel
    rw [hr, this]
  · rintro (⟨l, r, _, h, _⟩ | ⟨_, _, _, _, _, _, _, _, h, _⟩)
    · cases h
    · cases h

/-- A literal that is not a NaN (no literal of an accepted query is one: `newFloatVal`). -/
def NotNaN (v : Val) : Prop := ∀ z pos, v ≠ .float .nan z pos

theorem toF64_ne_nan (q : ℚ) : toF64 q ≠ .nan := by
  unfold toF64; dsimp only; split <;> simp

/-- **C13, the part that holds.** If the first operand is a datetime or a non-negative number, an
accepted between comparison has operands of one kind, in order. Missing: a negative first number,
see `C13_between_one_kind_refuted`. -/
theorem C13_between_one_kind_partial (f : List Str) (a b : Val) (pos : Pos)
    (h : opValidator E (.expr .BET f [a, b] pos) = .ok none)
    (hn : NotNaN a ∧ NotNaN b)
    (ha : typeOf a = .time ∨ ∃ l, NumLit a l ∧ FLe (.fin 0) l) : OneKind a b := by
  obtain ⟨r, hr, hi⟩ := C12_validator_decides_typing E .BET f [a, b] pos
  rw [h] at hr; cases hr
  have hok := hi.1 rfl
  have numlit : ∀ v l, NotNaN v → NumLit v l → l ≠ .nan := by
    intro v l hv hl
    cases hl with
    | int => exact toF64_ne_nan _
    | float => intro h; subst h; exact hv _ _ rfl
  rcases hok.between a b rfl rfl with h | ⟨hty, l, r, hl, hr, hle⟩
  · exact Or.inr h
  · rcases ha with h | ⟨l', hl', h0⟩
    · exact absurd h hty
    · have hll : l = l' := by
        rcases hl with h | ⟨h, _⟩
        · exact h.unique hl'
        · exact absurd hl' (h _)
      subst hll
      rcases hr with hr | ⟨hr, rfl⟩
      · refine Or.inl ⟨l, r, hl', hr, ?_⟩
        have h1 := numlit a l hn.1 hl'
        have h2 := numlit b r hn.2 hr
        rw [← F64.lt_iff]
        rw [← F64.le_iff] at hle
        cases l with
        | nan => exact absurd rfl h1
        | inf s => cases r with
          | nan => exact absurd rfl h2
          | inf s' => cases s <;> cases s' <;> simp_all [F64.le, F64.lt, F64.eq]
          | fin q => cases s <;> simp_all [F64.le, F64.lt]
        | fin p => cases r with
          | nan => exact absurd rfl h2
          | inf s' => cases s' <;> simp_all [F64.le, F64.lt]
          | fin q =>
            simp only [F64.le, F64.lt, F64.eq, Bool.or_eq_true, decide_eq_true_eq] at hle ⊢
            push Not at hle
            exact lt_of_le_of_ne hle.1 (fun h => hle.2 (by simp [h]))
      · exact absurd h0 hle

example : opValidator testEnv (.expr .BET ["f".toList]
    [.int 5 "5".toList noPosition, .int 7 "7".toList noPosition] noPosition) = .ok none := by
  decide +kernel

/-! ### C14 -/

/-- **C14.** Without further visitors a syntactically valid query is accepted, with its tree
unchanged, exactly when every comparison in it obeys the typing rules. -/
theorem C14_validation_covers_every_comparison {σ : Type} (s : VState σ) (root : Node) :
    finishParse E [] s (.ok root) = .ok (s, .ok root) ↔ ∀ c ∈ comparisons root, AllOk E c := by
  rw [← allOk_iff]
  constructor
  · intro h
    by_contra hn
    obtain ⟨e, he, _⟩ := finishParse_rejected E [] s root hn
    rw [he] at h; cases h
  · intro h
    rw [finishParse_accepted E [] s root h]; rfl

/-- **C14.** A query that is not accepted is rejected with the validator's error on its first
failing comparison from the left; other visitors are not run. -/
theorem C14_first_failing_comparison_reported {σ : Type} (vs : List (Visitor σ)) (s : VState σ)
    (root : Node) (h : ∃ c ∈ comparisons root, ¬ AllOk E c) :
    ∃ e, finishParse E vs s (.ok root) = .ok (s, .error e) ∧
      ∃ pre c post, comparisons root = pre ++ c :: post ∧ (∀ m ∈ pre, AllOk E m) ∧ ¬ AllOk E c ∧
        opValidator E c = .ok (some e) := by
  apply finishParse_rejected
  rw [allOk_iff]
  push Not
  exact h

-- a failing comparison deep in the tree
example : ∃ c ∈ comparisons (.not (.and (.expr .EXS ["a".toList] [] noPosition)
    (.or (.expr .NUL ["a".toList] [] noPosition) (.expr .GT ["b".toList] [] noPosition)))),
    ¬ AllOk testEnv c := by
  refine ⟨.expr .GT ["b".toList] [] noPosition, by simp [comparisons], fun h => ?_⟩
  have := h.arity; simp [ArityOk] at this

/-! ### C15 -/

/-- **C15.** A walk is the left-to-right run over the preorder listing of the tree in which `Skip`
drops exactly the descendants of the node, `SkipAll` ends without error and any other error ends
with that error; for every tree and every, also stateful, visitor. -/
theorem C15_walk_is_preorder_run {σ : Type} (v : Visitor σ) (s : VState σ) (n : Node) :
    walk v s n = runList v.visit 0 s (preorder n) :=
  walk_runList v s n

/-- **C15**, in terms of what is seen: a visitor that records what it sees and never returns an
error has recorded every node exactly once, in preorder. -/
theorem C15_recorder_sees_preorder (n : Node) (t : Nat → Tape) :
    walk (.func fun (seen : List Node) m => .ok (seen ++ [m], none)) ⟨[], t⟩ n =
      .ok (⟨(preorder n).map Prod.fst, t⟩, none) := by
  rw [walk_runList]
  have : ∀ (xs : List (Node × Nat)) (seen : List Node),
      runList (Visitor.func fun (seen : List Node) m => .ok (seen ++ [m], none)).visit 0 ⟨seen, t⟩ xs
        = .ok (⟨seen ++ xs.map Prod.fst, t⟩, none) := by
    intro xs
    induction xs with
    | nil => intro seen; simp [runList]
    | cons x xs ih =>
      intro seen
      simp only [runList, Visitor.visit]
      rw [ih]; simp
  exact this _ []

-- Skip on the inner AND of `NOT (a AND b)` hides a and b only; SkipAll hides everything after
example : (walk (.func fun (seen : Nat) m =>
      .ok (seen + 1, match m with | .and _ _ => some .skip | _ => none)) ⟨0, fun _ => Tape.new⟩
    (.or (.not (.and (.expr .EXS ["a".toList] [] noPosition) (.expr .EXS ["b".toList] [] noPosition)))
      (.expr .EXS ["c".toList] [] noPosition))).toOption.map (fun r => r.1.user) = some 4 := by
  decide +kernel

/-! ### C16 -/

/-- A visitor whose messages are not recorded. -/
def Visitor.silent {σ : Type} : Visitor σ → Visitor σ
  | .func f => .func f
  | .message id f => .message id fun u n =>
    match f u n with
    | .error p => .error p
    | .ok (u, _, r) => .ok (u, [], r)

theorem Visitor.silent_plain {σ : Type} (v : Visitor σ) : v.silent.plain = v.plain := by
  cases v with
  | func f => rfl
  | message id f =>
    funext u n
    simp only [Visitor.silent, Visitor.plain]
    rcases f u n with p | ⟨u, ms, r⟩ <;> rfl

theorem finishParse_congr {σ : Type} (vs vs' : List (Visitor σ)) (s : VState σ) (hs : Clean s)
    (out : Except PErr Node)
    (h : ∀ root, runPlain (vs.map Visitor.plain) s.user root =
      runPlain (vs'.map Visitor.plain) s.user root) :
    projUser (finishParse E vs s out) = projUser (finishParse E vs' s out) := by
  cases out with
  | error e => rfl
  | ok root =>
    rw [finishParse_eq, finishParse_eq]
    cases (comparisons root).findSome? (verdict E) with
    | some e => rfl
    | none =>
      have h1 := runVisitors_plain vs s root hs
      have h2 := runVisitors_plain vs' s root hs
      rw [h root, ← h2] at h1
      clear h2 h
      dsimp only
      rcases h3 : runVisitors vs s root with p | ⟨s1, _ | e1⟩ <;>
        rcases h4 : runVisitors vs' s root with p' | ⟨s2, _ | e2⟩ <;>
        rw [h3, h4] at h1 <;> simp_all [projUser]

/-- **C16, refuted.** Recording messages, of whatever type, never influences the outcome of a parse:
it is the same as when nothing is recorded (`silent`). -/
theorem C16_tape_never_fails_parse_refuted {σ : Type} (vs : List (Visitor σ)) (s : VState σ)
    (hs : ∀ i, (s.tapes i).firstErr = none) (out : Except PErr Node) :
    projUser (finishParse E vs s out) = projUser (finishParse E (vs.map Visitor.silent) s out) := by
  apply finishParse_congr E vs _ s hs
  intro root
  rw [List.map_map]
  congr 1
  apply List.map_congr_left
  intro v _
  exact (v.silent_plain).symm

/-- **C16, refuted: witness.** For every well-typed query there is a message visitor that records
an Error message while the parse succeeds. -/
theorem C16_error_message_accepted (root : Node) (h : AllOk E root) :
    ∃ (f : Unit → Node → GoM (Unit × List Msg × Option VErr)) (s' : VState Unit),
      finishParse E [.message 0 f] ⟨(), fun _ => Tape.new⟩ (.ok root) = .ok (s', .ok root) ∧
      ∃ m ∈ (s'.tapes 0).messages, m.type = .error := by
  let f : Unit → Node → GoM (Unit × List Msg × Option VErr) :=
    fun u _ => .ok (u, [⟨.error, noPosition, "bad".toList⟩], none)
  have hall : ∀ (xs : List (Node × Nat)) (s : VState Unit),
      ∃ s', runList (Visitor.message 0 f).visit 0 s xs = .ok (s', none) := by
    intro xs
    induction xs with
    | nil => intro s; exact ⟨s, rfl⟩
    | cons x xs ih => intro s; exact ih _
  obtain ⟨s', hs'⟩ := hall (preorder root) ⟨(), fun _ => Tape.new⟩
  have hc : Clean s' := by
    refine walk_clean (.message 0 f) ⟨(), fun _ => Tape.new⟩ s' root none (fun _ => rfl) ?_
    rw [walk_runList, hs']
  refine ⟨f, s', ?_, ?_⟩
  · rw [finishParse_accepted E _ _ root h]
    simp only [runVisitors, walk_runList, hs', Visitor.tapeErr, hc 0, Option.map_none]
  · have hne : preorder root ≠ [] := by cases root <;> simp [preorder]
    obtain ⟨x, xs, hx⟩ := List.exists_cons_of_ne_nil hne
    obtain ⟨n, below⟩ := x
    rw [hx, runList] at hs'
    simp only [Visitor.visit, f] at hs'
    obtain ⟨out, _, hm⟩ := runList_logged 0 f xs 0 _ s' none [] hs'
    refine ⟨⟨.error, noPosition, "bad".toList⟩, ?_, rfl⟩
    rw [hm 0]
    simp [Tape.addMsgs, Tape.addMsg, Tape.new]

example : AllOk testEnv (.expr .EXS ["a".toList] [] noPosition) :=
  ⟨rfl, by simp, by simp, by simp, by simp⟩

/-! ### C17 -/

/-- **C17.** The tape of a message visitor receives exactly the messages its function emitted, in
the order of the visits (`logged` runs the function and appends what it emits); no other tape
changes. -/
theorem C17_messages_in_recording_order {σ : Type} (id : Nat)
    (f : σ → Node → GoM (σ × List Msg × Option VErr)) (s s' : VState σ) (n : Node)
    (r : Option VErr) (h : walk (.message id f) s n = .ok (s', r)) :
    ∃ out, runList (logged f) 0 (s.user, []) (preorder n) = .ok ((s'.user, out), r) ∧
      (s'.tapes id).messages = (s.tapes id).messages ++ out ∧
      ∀ i, i ≠ id → (s'.tapes i).messages = (s.tapes i).messages := by
  rw [walk_runList] at h
  obtain ⟨out, h1, h2⟩ := runList_logged id f (preorder n) 0 s s' r [] h
  refine ⟨out, by simpa using h1, by simpa using h2 id, fun i hi => ?_⟩
  simpa [hi] using h2 i

/-- **C17.** A message visitor that returns no error (it may skip) and does not touch the state of
other visitors never changes the tree or the error of a parse, wherever it is registered. -/
theorem C17_message_visitor_transparent {σ : Type} (pre post : List (Visitor σ)) (id : Nat)
    (f : σ → Node → GoM (σ × List Msg × Option VErr))
    (hf : ∀ u n, ∃ ms r, f u n = .ok (u, ms, r) ∧ (r = none ∨ r = some .skip ∨ r = some .skipAll))
    (s : VState σ) (hs : ∀ i, (s.tapes i).firstErr = none) (out : Except PErr Node) :
    projUser (finishParse E (pre ++ .message id f :: post) s out) =
      projUser (finishParse E (pre ++ post) s out) := by
  apply finishParse_congr E _ _ s hs
  intro root
  have hquiet : ∀ (xs : List (Node × Nat)) (k : Nat) (u : σ),
      runList (Visitor.message id f).plain k u xs = .ok (u, none) := by
    intro xs
    induction xs with
    | nil => intro k u; cases k <;> rfl
    | cons x xs ih =>
      obtain ⟨n, below⟩ := x
      intro k u
      cases k with
      | succ k => exact ih k u
      | zero =>
        obtain ⟨ms, r, hfu, hr⟩ := hf u n
        rw [runList]
        simp only [Visitor.plain, hfu]
        rcases hr with rfl | rfl | rfl
        · exact ih 0 u
        · exact ih below u
        · rfl
  generalize s.user = u
  induction pre generalizing u with
  | nil =>
    simp only [List.nil_append, List.map_cons, runPlain]
    rw [hquiet]
  | cons v pre ih =>
    simp only [List.cons_append, List.map_cons, runPlain]
    rcases runList v.plain 0 u (preorder root) with p | ⟨u', _ | e⟩
    · rfl
    · exact ih u'
    · rfl

example (u : Unit) (n : Node) : ∃ ms r,
    (fun u _ => .ok (u, [⟨.warning, noPosition, "w".toList⟩], some .skip) :
      Unit → Node → GoM (Unit × List Msg × Option VErr)) u n = .ok (u, ms, r) ∧
      (r = none ∨ r = some .skip ∨ r = some .skipAll) :=
  ⟨[⟨.warning, noPosition, "w".toList⟩], some .skip, rfl, by simp⟩

/-! ### C57 -/

/-- The deprecation warning an operand of `~` calls for. -/
def depOf : Val → Option Msg
  | .str _ pos => some ⟨.warning, pos, simStringText⟩
  | .regex _ _ pos => some ⟨.warning, pos, simRegexText⟩
  | _ => none

/-- The exact-datetime warning an operand of `:` calls for. -/
def exactOf : Val → Option Msg
  | .time _ _ false pos => some ⟨.warning, pos, exactTimeText⟩
  | _ => none

/-- Expected deprecation warnings of a comparison. -/
def depsOf : Node → List Msg
  | .expr .SIM _ vs _ => vs.filterMap depOf
  | _ => []

/-- Expected exact-datetime warnings of a comparison. -/
def exactsOf : Node → List Msg
  | .expr .EQ _ vs _ => vs.filterMap exactOf
  | _ => []

/-- A message is a deprecation warning for `~`. -/
def isDep (m : Msg) : Bool := m.type = .warning ∧ (m.text = simStringText ∨ m.text = simRegexText)

/-- A message is an exact-datetime warning. -/
def isExact (m : Msg) : Bool := m.type = .warning ∧ m.text = exactTimeText

theorem caseRegexText_head (sv : Str) : (caseRegexText sv).head? = some 'C' := rfl

theorem isDep_case (pos : Pos) (sv : Str) : isDep ⟨.warning, pos, caseRegexText sv⟩ = false := by
  simp only [isDep, decide_eq_false_iff_not, not_and, not_or]
  intro _
  constructor <;> (intro h; have := caseRegexText_head sv; rw [h] at this; revert this; decide +kernel)

theorem isExact_case (pos : Pos) (sv : Str) :
    isExact ⟨.warning, pos, caseRegexText sv⟩ = false := by
  simp only [isExact, decide_eq_false_iff_not, not_and]
  intro _ h
  have := caseRegexText_head sv; rw [h] at this; revert this; decide +kernel

theorem filter_hints {p : Msg → Bool} (hp : ∀ m, p m = true → m.type = .warning) (ms : List Msg)
    (h : ∀ m ∈ ms, m.type = .hint) : ms.filter p = [] := by
  rw [List.filter_eq_nil_iff]
  intro m hm hpm
  have := hp m hpm; rw [h m hm] at this; cases this

theorem isDep_warning (m : Msg) (h : isDep m = true) : m.type = .warning := by
  simp only [isDep, decide_eq_true_eq] at h; exact h.1

theorem isExact_warning (m : Msg) (h : isExact m = true) : m.type = .warning := by
  simp only [isExact, decide_eq_true_eq] at h; exact h.1

theorem reHints_hint (field : List Str) (src : Str) (pos : Pos) (reg : ReSyn) :
    ∀ m ∈ reHints E field src pos reg, m.type = .hint := by
  intro m hm
  simp only [reHints, List.mem_append] at hm
  have one : ∀ (c : Prop) [Decidable c] (x : Msg), x.type = .hint →
      m ∈ (if c then [x] else []) → m.type = .hint := by
    intro c _ x hx h
    split at h
    · simp only [List.mem_singleton] at h; rw [h, hx]
    · cases h
  have two : ∀ (c : Prop) [Decidable c] (a b : List Msg),
      m ∈ (if c then a ++ b else []) → m ∈ a ∨ m ∈ b := by
    intro c _ a b h
    split at h
    · exact List.mem_append.1 h
    · cases h
  rcases hm with (h | h) | h
  · exact one _ _ rfl h
  · exact one _ _ rfl h
  · rcases two _ _ _ h with h | h
    · exact one _ _ rfl h
    · exact one _ _ rfl h

theorem valMessages_dep (op : Op) (field : List Str) (v : Val) :
    (valMessages E op field v).1.filter isDep = (if op = .SIM then (depOf v).toList else []) := by
  have hs : ∀ pos, isDep ⟨.warning, pos, simStringText⟩ = true := by intro; simp [isDep]
  have hr : ∀ pos, isDep ⟨.warning, pos, simRegexText⟩ = true := by intro; simp [isDep]
  have ht : ∀ pos, isDep ⟨.warning, pos, exactTimeText⟩ = false := by
    intro pos; simp only [isDep, decide_eq_false_iff_not, true_and]; decide +kernel
  cases v with
  | str sv pos => simp only [valMessages, depOf]; split <;> simp [hs]
  | time sv t d pos =>
    simp only [valMessages, depOf]
    split <;> simp [ht]
  | regex sv src pos =>
    have key : ∀ (a b c : List Msg), a.filter isDep = (if op = .SIM then [⟨.warning, pos, simRegexText⟩] else []) →
        b.filter isDep = [] → c.filter isDep = [] → (a ++ b ++ c).filter isDep =
          (if op = .SIM then [⟨.warning, pos, simRegexText⟩] else []) := by
      intro a b c h1 h2 h3; simp [h1, h2, h3]
    have h1 : (if op = .SIM then [⟨.warning, pos, simRegexText⟩] else [] : List Msg).filter isDep =
        (if op = .SIM then [⟨.warning, pos, simRegexText⟩] else []) := by split <;> simp [hr]
    have h2 : ∀ (c : Prop) [Decidable c], (if c then
        [⟨.warning, pos, caseRegexText sv⟩] else [] : List Msg).filter isDep = [] := by
      intro c _; split <;> simp [isDep_case]
    have h3 : ∀ (c : Prop) [Decidable c], (if c then
        [⟨.hint, pos, dotStarText sv⟩] else [] : List Msg).filter isDep = [] := by
      intro c _; split <;> simp [isDep]
    simp only [valMessages, depOf, Option.toList]
    split
    · simp only [List.filter_append, h1, h2, h3, List.append_nil]
    · simp only [List.filter_append, h1, h2, h3, List.append_nil,
        filter_hints isDep_warning _ (reHints_hint E _ _ _ _)]
  | _ => simp [valMessages, depOf]

theorem valMessages_exact (op : Op) (field : List Str) (v : Val) :
    (valMessages E op field v).1.filter isExact = (if op = .EQ then (exactOf v).toList else []) := by
  have hs : ∀ pos, isExact ⟨.warning, pos, simStringText⟩ = false := by
    intro pos; simp only [isExact, decide_eq_false_iff_not, true_and]; decide +kernel
  have hr : ∀ pos, isExact ⟨.warning, pos, simRegexText⟩ = false := by
    intro pos; simp only [isExact, decide_eq_false_iff_not, true_and]; decide +kernel
  have ht : ∀ pos, isExact ⟨.warning, pos, exactTimeText⟩ = true := by intro; simp [isExact]
  cases v with
  | str sv pos => simp only [valMessages, exactOf]; split <;> simp [hs]
  | time sv t d pos =>
    simp only [valMessages, exactOf]
    cases d
    · by_cases h : op = .EQ <;> simp [h, ht]
    · simp
  | regex sv src pos =>
    have h1 : (if op = .SIM then [⟨.warning, pos, simRegexText⟩] else [] : List Msg).filter isExact
        = [] := by split <;> simp [hr]
    have h2 : ∀ (c : Prop) [Decidable c], (if c then
        [⟨.warning, pos, caseRegexText sv⟩] else [] : List Msg).filter isExact = [] := by
      intro c _; split <;> simp [isExact_case]
    have h3 : ∀ (c : Prop) [Decidable c], (if c then
        [⟨.hint, pos, dotStarText sv⟩] else [] : List Msg).filter isExact = [] := by
      intro c _; split <;> simp [isExact]
    simp only [valMessages, exactOf]
    split
    · simp [List.filter_append, h1, h2, h3]
    · simp only [List.filter_append, h1, h2, h3, List.append_nil,
        filter_hints isExact_warning _ (reHints_hint E _ _ _ _)]
      simp
  | _ => simp [valMessages, exactOf]

theorem exprMessages_filter (op : Op) (field : List Str) (p : Msg → Bool) (g : Val → Option Msg)
    (o : Op) (h : ∀ v, (valMessages E op field v).1.filter p = (if op = o then (g v).toList else []))
    (vs : List Val) (hok : (exprMessages E op field vs).2 = none) :
    (exprMessages E op field vs).1.filter p = (if op = o then vs.filterMap g else []) := by
  induction vs with
  | nil => simp [exprMessages]
  | cons v vs ih =>
    have hv := h v
    simp only [exprMessages] at hok ⊢
    rcases hm : valMessages E op field v with ⟨ms, _ | e⟩
    · rw [hm] at hok hv
      simp only [List.filter_append, hv, ih hok]
      by_cases ho : op = o
      · simp only [ho, if_true]
        cases hg : g v <;> simp [hg]
      · simp [ho]
    · rw [hm] at hok; cases hok

theorem messageVisitor_runList (xs : List (Node × Nat)) (log out : List Msg) (u : Unit) :
    runList (logged fun u n => .ok (u, messageVisitorFn E n)) 0 ((), log) xs
      = .ok ((u, out), none) →
    out = log ++ xs.flatMap (fun x => (messageVisitorFn E x.1).1) ∧
      ∀ x ∈ xs, (messageVisitorFn E x.1).2 = none := by
  have hskip : ∀ n, (messageVisitorFn E n).2 = none ∨
      ∃ m, (messageVisitorFn E n).2 = some (.other m) := by
    intro n
    cases n with
    | expr op f vs pos =>
      simp only [messageVisitorFn]
      induction vs with
      | nil => exact Or.inl rfl
      | cons v vs ih =>
        have hv : (valMessages E op f v).2 = none ∨
            ∃ m, (valMessages E op f v).2 = some (.other m) := by
          cases v with
          | regex sv src pos =>
            simp only [valMessages]
            split
            · exact Or.inr ⟨_, rfl⟩
            · exact Or.inl rfl
          | _ => exact Or.inl rfl
        simp only [exprMessages]
        rcases hm : valMessages E op f v with ⟨ms, _ | e⟩
        · exact ih
        · rw [hm] at hv
          rcases hv with h | ⟨m, h⟩
          · cases h
          · exact Or.inr ⟨m, by simpa using h⟩
    | _ => exact Or.inl rfl
  induction xs generalizing log with
  | nil => intro h; cases h; simp
  | cons x xs ih =>
    obtain ⟨n, below⟩ := x
    intro h
    rw [runList] at h
    simp only [logged] at h
    have hk := hskip n
    rcases hm : messageVisitorFn E n with ⟨ms, _ | e⟩
    · rw [hm] at h
      obtain ⟨h1, h2⟩ := ih _ h
      refine ⟨by simp [h1, hm], ?_⟩
      intro y hy
      rcases List.mem_cons.1 hy with rfl | hy
      · simp [hm]
      · exact h2 y hy
    · rw [hm] at h hk
      rcases hk with hk | ⟨m, hk⟩
      · cases hk
      · simp only [Option.some.injEq] at hk; subst hk; cases h

theorem preorder_flatMap {β : Type} (g : Node → List β)
    (hg : ∀ n, (∀ op f vs pos, n ≠ .expr op f vs pos) → g n = []) (n : Node) :
    (preorder n).flatMap (fun x => g x.1) = (comparisons n).flatMap g := by
  induction n with
  | and l r ihl ihr =>
    simp only [preorder, comparisons, List.flatMap_cons, List.flatMap_append, ihl, ihr]
    rw [hg _ (by simp)]; rfl
  | or l r ihl ihr =>
    simp only [preorder, comparisons, List.flatMap_cons, List.flatMap_append, ihl, ihr]
    rw [hg _ (by simp)]; rfl
  | not e ih =>
    simp only [preorder, comparisons, List.flatMap_cons, ih]
    rw [hg _ (by simp)]; rfl
  | subdoc f e ih =>
    simp only [preorder, comparisons, List.flatMap_cons, ih]
    rw [hg _ (by simp)]; rfl
  | expr op f vs pos => simp [preorder, comparisons]

/-- The messages of a matcher are those of its comparisons, one after the other. -/
theorem newMatcher_messages (query : Str) (root : Node) (m : Matcher) (msgs : List Msg)
    (h : newMatcherFrom E query (.ok root) = .ok (.ok (m, msgs))) :
    msgs = (comparisons root).flatMap (fun n => (messageVisitorFn E n).1) ∧
    ∀ c ∈ comparisons root, (messageVisitorFn E c).2 = none := by
  unfold newMatcherFrom at h
  rw [finishParse_eq] at h
  cases hv : (comparisons root).findSome? (verdict E) with
  | some e => rw [hv] at h; cases h
  | none =>
    rw [hv] at h
    simp only [runVisitors] at h
    rcases hw : walk (messageVisitor E) ⟨(), fun _ => Tape.new⟩ root with p | ⟨s', _ | e⟩
    · rw [hw] at h; cases h
    · have hc := walk_clean _ _ _ _ _ (fun _ => rfl) hw
      rw [hw] at h
      simp only [messageVisitor, Visitor.tapeErr, hc 0, Option.map_none] at h
      rcases hb : build E root with p | b
      · rw [hb] at h; cases h
      · rw [hb] at h
        simp only [Except.ok.injEq, Prod.mk.injEq] at h
        obtain ⟨out, h1, h2, _⟩ := C17_messages_in_recording_order 0 _ _ _ _ _ hw
        have hm : msgs = out := by rw [← h.2, h2]; rfl
        subst hm
        obtain ⟨h3, h4⟩ := messageVisitor_runList E _ _ _ _ h1
        rw [List.nil_append] at h3
        have hout : msgs = (comparisons root).flatMap (fun n => (messageVisitorFn E n).1) := by
          rw [h3, preorder_flatMap (fun n => (messageVisitorFn E n).1)]
          intro n hn
          cases n with
          | expr op f vs pos => exact absurd rfl (hn op f vs pos)
          | _ => rfl
        have hno : ∀ c ∈ comparisons root, (messageVisitorFn E c).2 = none := by
          intro c hc
          have : c ∈ (preorder root).map Prod.fst := by
            have hh := preorder_flatMap (fun n => match n with
              | .expr .. => [n] | _ => []) (by
                intro n hn
                cases n with
                | expr op f vs pos => exact absurd rfl (hn op f vs pos)
                | _ => rfl) root
            have hmem : c ∈ (comparisons root).flatMap (fun n => match n with
                | .expr .. => [n] | _ => []) := by
              rw [List.mem_flatMap]
              refine ⟨c, hc, ?_⟩
              obtain ⟨op, f, vs, pos, rfl⟩ := comparisons_expr root c hc
              simp
            rw [← hh, List.mem_flatMap] at hmem
            obtain ⟨x, hx, hcx⟩ := hmem
            obtain ⟨n, below⟩ := x
            cases n with
            | expr op f vs pos =>
              simp only [List.mem_singleton] at hcx; subst hcx
              exact List.mem_map.2 ⟨_, hx, rfl⟩
            | _ => cases hcx
          obtain ⟨x, hx, rfl⟩ := List.mem_map.1 this
          exact h4 x hx
        exact ⟨hout, hno⟩
    · rw [hw] at h; cases h

/-- **C57.** The `~` deprecation warnings of a matcher are exactly one per string or regex operand
of a `~` comparison, and the exact-datetime warnings exactly one per full datetime operand of an
equality, in query order and with the position of the operand. -/
theorem C57_messages_attached (query : Str) (root : Node) (m : Matcher) (msgs : List Msg)
    (h : newMatcherFrom E query (.ok root) = .ok (.ok (m, msgs))) :
    msgs.filter isDep = (comparisons root).flatMap depsOf ∧
    msgs.filter isExact = (comparisons root).flatMap exactsOf := by
  obtain ⟨hout, hno⟩ := newMatcher_messages E query root m msgs h
  have hf : ∀ (p : Msg → Bool) (g : Node → List Msg),
      (∀ op f vs pos, (exprMessages E op f vs).2 = none →
        (exprMessages E op f vs).1.filter p = g (.expr op f vs pos)) →
      msgs.filter p = (comparisons root).flatMap g := by
    intro p g hg
    rw [hout, List.filter_flatMap]
    apply List.flatMap_congr
    intro c hc
    have h0 := hno c hc
    obtain ⟨op, f, vs, pos, rfl⟩ := comparisons_expr root c hc
    exact hg op f vs pos h0
  constructor
  · apply hf
    intro op f vs pos h0
    rw [exprMessages_filter E op f isDep depOf .SIM (valMessages_dep E op f) vs h0]
    cases op <;> simp [depsOf]
  · apply hf
    intro op f vs pos h0
    rw [exprMessages_filter E op f isExact exactOf .EQ (valMessages_exact E op f) vs h0]
    cases op <;> simp [exactsOf]

-- a query with both kinds of warnings
example : ((newMatcherFrom testEnv [] (.ok (.and
      (.expr .SIM ["a".toList] [.str "x".toList ⟨1, 1, 1, 2⟩, .bool true ⟨5, 1, 1, 6⟩] noPosition)
      (.expr .EQ ["b".toList] [.time "t".toList 0 false ⟨9, 1, 1, 10⟩] noPosition)))).toOption.map
      fun r => r.toOption.map fun p => p.2.map Msg.pos) =
    some (some [⟨1, 1, 1, 2⟩, ⟨9, 1, 1, 10⟩]) := by
  decide +kernel

end Aql
