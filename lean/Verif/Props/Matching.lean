import Verif.Proofs.Visitors
/-!
Properties C18 - C27 and C37: building matchers, connectives, paths, arrays.

`Ready E root m`: `m` is the matcher that `NewMatcher` returned for a query whose tree is `root`, in
any state of its statistics counters (so also after any number of `Match` calls).
-/

namespace Aql

open Spec

variable (E : Env)

/-- What every tree returned by the grammar satisfies (proved in `Props/Grammar`): no sub-document
node, network literals are IPv4 prefixes. -/
def FromGrammar (root : Node) : Prop := NoSubdoc root ∧ LitsIn LitOk root

/-- `m` is a matcher for the query tree `root`. -/
structure Ready (root : Node) (m : Matcher) : Prop where
  compiled : ∃ q msgs m0, newMatcherFrom E q (.ok root) = .ok (.ok (m0, msgs)) ∧ m.root = m0.root
  grammar : FromGrammar root

/-- `Match` on the document returns true. -/
def Accepts (m : Matcher) (d : Json) : Prop := (m.match E (.valid d)).2 = .result true

theorem newMatcherFrom_ok {q : Str} {root : Node} {m0 : Matcher} {msgs : List Msg}
    (h : newMatcherFrom E q (.ok root) = .ok (.ok (m0, msgs))) :
    AllOk E root ∧ build E root = .ok m0.root := by
  unfold newMatcherFrom at h
  by_cases hok : AllOk E root
  · refine ⟨hok, ?_⟩
    rw [finishParse_accepted E _ _ _ hok] at h
    rcases hr : runVisitors [messageVisitor E] ⟨(), fun _ => Tape.new⟩ root with p | ⟨s, _ | e⟩
    · rw [hr] at h; cases h
    · rw [hr] at h
      dsimp only at h
      rcases hb : build E root with p | b
      · rw [hb] at h; cases h
      · rw [hb] at h; cases h; rfl
    · rw [hr] at h; cases h
  · obtain ⟨e, he, _⟩ := finishParse_rejected E [messageVisitor E] ⟨(), fun _ => Tape.new⟩ root hok
    rw [he] at h; cases h

variable {E}

theorem Ready.allOk {root : Node} {m : Matcher} (h : Ready E root m) : AllOk E root := by
  obtain ⟨q, msgs, m0, h1, _⟩ := h.compiled
  exact (newMatcherFrom_ok E h1).1

/-- The answer of a matcher is the meaning of its query. -/
theorem Ready.answer {root : Node} {m : Matcher} (h : Ready E root m) {d : Json}
    (hp : PathsIn (Plain d) root) :
    (∃ b, (m.match E (.valid d)).2 = .result b) ∧ (Accepts E m d ↔ Sat E d root) := by
  obtain ⟨q, msgs, m0, h1, h2⟩ := h.compiled
  obtain ⟨hok, hb⟩ := newMatcherFrom_ok E h1
  obtain ⟨b, hb', hs⟩ := build_spec E root hok h.grammar.1 h.grammar.2
  rw [hb] at hb'
  simp only [Except.ok.injEq] at hb'
  obtain ⟨r, hr, hi⟩ := hs d hp []
  have : (m.match E (.valid d)).2 = .result r := by
    simp only [Matcher.match]
    rw [h2, hb']
    rcases hx : b.result E d [] with ⟨ts, _ | b'⟩
    · rw [hx] at hr; cases hr
    · rw [hx] at hr; cases hr; rfl
  refine ⟨⟨r, this⟩, ?_⟩
  unfold Accepts
  rw [this, ← hi]
  simp

theorem Ready.accepts {root : Node} {m : Matcher} (h : Ready E root m) {d : Json}
    (hp : PathsIn (Plain d) root) : Accepts E m d ↔ Sat E d root := (h.answer hp).2

variable (E)

/-- Whether `NewMatcher` returns a matcher, decided by running it. -/
def compiles (root : Node) : Bool :=
  match newMatcherFrom E [] (.ok root) with
  | .ok (.ok _) => true
  | _ => false

theorem ready_of_compiles {root : Node} (h : compiles E root = true) (hg : FromGrammar root) :
    ∃ m, Ready E root m := by
  unfold compiles at h
  split at h
  · rename_i x hx
    obtain ⟨m0, msgs⟩ := x
    exact ⟨m0, ⟨_, _, _, hx, rfl⟩, hg⟩
  · cases h

/-- The library can parse the pattern of a regex literal again for the hints. -/
def ReParses (v : Val) : Prop :=
  match v with
  | .regex _ src _ => (E.reSyntax src).isSome = true
  | _ => True

theorem messages_ok {n : Node} (h : LitsIn (ReParses E) n) :
    ∀ x ∈ preorder n, (messageVisitorFn E x.1).2 = none := by
  induction n with
  | and l r ihl ihr =>
    intro x hx
    simp only [preorder, List.mem_cons, List.mem_append] at hx
    rcases hx with rfl | hx | hx
    · rfl
    · exact ihl h.1 x hx
    · exact ihr h.2 x hx
  | or l r ihl ihr =>
    intro x hx
    simp only [preorder, List.mem_cons, List.mem_append] at hx
    rcases hx with rfl | hx | hx
    · rfl
    · exact ihl h.1 x hx
    · exact ihr h.2 x hx
  | not e ih =>
    intro x hx
    simp only [preorder, List.mem_cons] at hx
    rcases hx with rfl | hx
    · rfl
    · exact ih h x hx
  | subdoc f e ih =>
    intro x hx
    simp only [preorder, List.mem_cons] at hx
    rcases hx with rfl | hx
    · rfl
    · exact ih h x hx
  | expr op f vs pos =>
    intro x hx
    simp only [preorder, List.mem_singleton] at hx
    subst hx
    simp only [LitsIn] at h
    simp only [messageVisitorFn]
    induction vs with
    | nil => rfl
    | cons v vs ih =>
      have hvv : (valMessages E op f v).2 = none := by
        have hv := h v (by simp)
        cases v with
        | regex sv src pos =>
          simp only [valMessages]
          simp only [ReParses] at hv
          split
          · rename_i h'; rw [h'] at hv; cases hv
          · rfl
        | _ => rfl
      simp only [exprMessages]
      rcases hm : valMessages E op f v with ⟨ms, _ | e⟩
      · exact ih (fun w hw => h w (by simp [hw]))
      · rw [hm] at hvv; cases hvv

variable {E} in
/-- Every well-typed query from the grammar has a matcher. -/
theorem ready_of_allOk {n : Node} (hok : AllOk E n) (hg : FromGrammar n)
    (hre : LitsIn (ReParses E) n) : ∃ m, Ready E n m := by
  obtain ⟨bn, hb, _⟩ := build_spec E n hok hg.1 hg.2
  have hrun : ∀ (xs : List (Node × Nat)), (∀ x ∈ xs, (messageVisitorFn E x.1).2 = none) →
      ∀ (s : VState Unit), ∃ s', runList (messageVisitor E).visit 0 s xs = .ok (s', none) := by
    intro xs
    induction xs with
    | nil => intro _ s; exact ⟨s, rfl⟩
    | cons x xs ih =>
      obtain ⟨n, below⟩ := x
      intro hx s
      rw [runList]
      simp only [messageVisitor, Visitor.visit]
      have := hx (n, below) (by simp)
      rcases hm : messageVisitorFn E n with ⟨ms, _ | e⟩
      · exact ih (fun y hy => hx y (by simp [hy])) _
      · rw [hm] at this; cases this
  obtain ⟨s', hs'⟩ := hrun (preorder n) (messages_ok E hre) ⟨(), fun _ => Tape.new⟩
  have hw : walk (messageVisitor E) ⟨(), fun _ => Tape.new⟩ n = .ok (s', none) := by
    rw [walk_runList, hs']
  have hc := walk_clean _ _ _ _ _ (fun _ => rfl) hw
  have ht : (messageVisitor E).tapeErr s' = none := by
    simp [messageVisitor, Visitor.tapeErr, hc 0]
  refine ⟨⟨bn, [], Counters.zero⟩, ⟨[], (s'.tapes 0).messages, _, ?_, rfl⟩, hg⟩
  unfold newMatcherFrom
  rw [finishParse_accepted E _ _ _ hok]
  simp only [runVisitors, hw, ht, hb]

/-! ### C18 -/

/-- **C18.** Building a matcher from a tree returned by the grammar never panics: NewMatcher returns
an error or a matcher, whatever the query. -/
theorem C18_newMatcher_never_panics (query : Str) (out : Except PErr Node)
    (h : ∀ root, out = .ok root → FromGrammar root) :
    ∃ r, newMatcherFrom E query out = .ok r := by
  cases out with
  | error e => exact ⟨_, rfl⟩
  | ok root =>
    have hg := h root rfl
    unfold newMatcherFrom
    by_cases hok : AllOk E root
    · rw [finishParse_accepted E _ _ _ hok]
      obtain ⟨b, hb, _⟩ := build_spec E root hok hg.1 hg.2
      have hnp : ∀ (xs : List (Node × Nat)) (k : Nat) (s : VState Unit),
          ∃ r, runList (messageVisitor E).visit k s xs = .ok r := by
        intro xs
        induction xs with
        | nil => intro k s; cases k <;> exact ⟨_, rfl⟩
        | cons x xs ih =>
          obtain ⟨n, below⟩ := x
          intro k s
          cases k with
          | succ k => exact ih k s
          | zero =>
            rw [runList]
            simp only [messageVisitor, Visitor.visit]
            rcases hm : messageVisitorFn E n with ⟨ms, _ | e⟩
            · exact ih 0 _
            · cases e with
              | skip => exact ih below _
              | _ => exact ⟨_, rfl⟩
      obtain ⟨⟨s, r⟩, hr⟩ := hnp (preorder root) 0 ⟨(), fun _ => Tape.new⟩
      have hw : walk (messageVisitor E) ⟨(), fun _ => Tape.new⟩ root = .ok (s, r) := by
        rw [walk_runList, hr]
      simp only [runVisitors, hw]
      cases r with
      | some e => exact ⟨_, rfl⟩
      | none =>
        dsimp only
        cases (messageVisitor E).tapeErr s with
        | some e => exact ⟨_, rfl⟩
        | none => simp only [hb]; exact ⟨_, rfl⟩
    · obtain ⟨e, he, _⟩ := finishParse_rejected E [messageVisitor E] ⟨(), fun _ => Tape.new⟩ root hok
      rw [he]; exact ⟨_, rfl⟩

/-- **C18.** The regular expression generated for any string literal is syntactically valid. -/
theorem C18_string_regexp_valid (s : Str) : reCompiles E (stringSearchRegexp E s) = true :=
  reCompiles_stringSearch E s

-- a query with a string full of regexp metacharacters builds
example : compiles testEnv (.expr .EQ ["a".toList] [.str "(x[*]?\\*+.|^$".toList noPosition]
    noPosition) = true := by decide +kernel

/-! ### C19 -/

/-- **C19, refuted.** A comparison whose field has only `*` segments has an empty path; its matcher
panics on every document. -/
theorem C19_match_panics_refuted : ∃ root, FromGrammar root ∧ (∃ m, Ready E root m) ∧
    ∀ m, Ready E root m → ∀ d, ∃ p, (m.match E (.valid d)).2 = .panic p := by
  have hg : FromGrammar (.expr .EXS [] [] noPosition) := ⟨trivial, by simp [LitsIn]⟩
  have hb : build E (.expr .EXS [] [] noPosition) =
      .ok (.expr [] [.exists_] (friendlyString E .EXS [] [])) := rfl
  refine ⟨.expr .EXS [] [] noPosition, hg, ?_, ?_⟩
  · have hok : AllOk E (.expr .EXS [] [] noPosition) :=
      ⟨rfl, by simp, by simp, by simp, by simp⟩
    refine ⟨⟨.expr [] [.exists_] (friendlyString E .EXS [] []), [], Counters.zero⟩,
      ⟨[], [], _, ?_, rfl⟩, hg⟩
    unfold newMatcherFrom
    rw [finishParse_accepted E _ _ _ hok]
    rfl
  · intro m hm d
    obtain ⟨q, msgs, m0, h1, h2⟩ := hm.compiled
    have h3 := (newMatcherFrom_ok E h1).2
    rw [hb] at h3
    simp only [Except.ok.injEq] at h3
    refine ⟨.outOfRange, ?_⟩
    simp only [Matcher.match]
    rw [h2, ← h3]
    rfl

/-- **C19, the part that holds.** On an object document, `Match` returns a result for every query in
which every field has a named segment. Missing: fields made of `*` only, see
`C19_match_panics_refuted`. -/
theorem C19_match_never_panics_partial {root : Node} {m : Matcher} (h : Ready E root m)
    (ms : List (Str × Json)) (hp : PathsIn (fun path => path ≠ []) root) :
    ∃ b, (m.match E (.valid (.obj ms))).2 = .result b := by
  refine (h.answer (d := .obj ms) ?_).1
  have : ∀ n, PathsIn (fun path => path ≠ []) n → PathsIn (Plain (.obj ms)) n := by
    intro n
    induction n with
    | and l r ihl ihr => exact fun h => ⟨ihl h.1, ihr h.2⟩
    | or l r ihl ihr => exact fun h => ⟨ihl h.1, ihr h.2⟩
    | not e ih => exact ih
    | subdoc f e ih => exact ih
    | expr op f vs pos =>
      intro h
      obtain ⟨k, rest, hk⟩ := List.exists_cons_of_ne_nil h
      exact ⟨k, rest, hk, by simp⟩
  exact this root hp

/-- **C19, the part that holds, for every document.** A document that is not an object is no
problem either, if no field begins with an empty segment or with `[`. -/
theorem C19_match_never_panics_any_document_partial {root : Node} {m : Matcher}
    (h : Ready E root m) (d : Json) (hp : PathsIn (Plain d) root) :
    ∃ b, (m.match E (.valid d)).2 = .result b :=
  (h.answer hp).1

-- a query and matcher that meet the hypotheses
example : ∃ m, Ready testEnv (.and (.expr .EXS ["a".toList] [] noPosition)
    (.expr .GT ["b".toList, "c".toList] [.int 3 "3".toList noPosition] noPosition)) m :=
  ready_of_compiles testEnv (by decide +kernel) ⟨⟨trivial, trivial⟩, by simp [LitsIn, LitOk]⟩

/-! ### C20 -/

variable {E} {d : Json} {m ma mb mc m1 m2 : Matcher} {a b c : Node}

/-- **C20.** `A AND B` matches iff both match. -/
theorem C20_and (h : Ready E (.and a b) m) (ha : Ready E a ma) (hb : Ready E b mb)
    (hp : PathsIn (Plain d) (.and a b)) :
    Accepts E m d ↔ Accepts E ma d ∧ Accepts E mb d := by
  rw [h.accepts hp, ha.accepts hp.1, hb.accepts hp.2, Sat]

/-- **C20.** `A OR B` matches iff at least one matches. -/
theorem C20_or (h : Ready E (.or a b) m) (ha : Ready E a ma) (hb : Ready E b mb)
    (hp : PathsIn (Plain d) (.or a b)) :
    Accepts E m d ↔ Accepts E ma d ∨ Accepts E mb d := by
  rw [h.accepts hp, ha.accepts hp.1, hb.accepts hp.2, Sat]

/-- **C20.** `NOT A` matches iff A does not. -/
theorem C20_not (h : Ready E (.not a) m) (ha : Ready E a ma) (hp : PathsIn (Plain d) (.not a)) :
    Accepts E m d ↔ ¬ Accepts E ma d := by
  rw [h.accepts hp, ha.accepts hp, Sat]

/-- **C20.** The operands of a query that has a matcher have matchers too (so the laws above speak
about every compound query) -- up to the hints for regular expressions, which the library must be
able to parse in both cases. -/
theorem C20_operands_compile (h : Ready E (.and a b) m ∨ Ready E (.or a b) m)
    (hre : LitsIn (ReParses E) (.and a b)) : (∃ ma, Ready E a ma) ∧ ∃ mb, Ready E b mb := by
  rcases h with h | h
  · exact ⟨ready_of_allOk h.allOk.1 ⟨h.grammar.1.1, h.grammar.2.1⟩ hre.1,
      ready_of_allOk h.allOk.2 ⟨h.grammar.1.2, h.grammar.2.2⟩ hre.2⟩
  · exact ⟨ready_of_allOk h.allOk.1 ⟨h.grammar.1.1, h.grammar.2.1⟩ hre.1,
      ready_of_allOk h.allOk.2 ⟨h.grammar.1.2, h.grammar.2.2⟩ hre.2⟩

/-- **C20.** De Morgan. -/
theorem C20_de_morgan (h1 : Ready E (.not (.and a b)) m1)
    (h2 : Ready E (.or (.not a) (.not b)) m2) (hp : PathsIn (Plain d) (.and a b)) :
    Accepts E m1 d ↔ Accepts E m2 d := by
  rw [h1.accepts hp, h2.accepts hp]; simp only [Sat]; tauto

/-- **C20.** De Morgan, dual. -/
theorem C20_de_morgan_or (h1 : Ready E (.not (.or a b)) m1)
    (h2 : Ready E (.and (.not a) (.not b)) m2) (hp : PathsIn (Plain d) (.or a b)) :
    Accepts E m1 d ↔ Accepts E m2 d := by
  rw [h1.accepts hp, h2.accepts hp]; simp only [Sat]; tauto

/-- **C20.** Commutativity. -/
theorem C20_commutative (h1 : Ready E (.and a b) m1) (h2 : Ready E (.and b a) m2)
    (h3 : Ready E (.or a b) ma) (h4 : Ready E (.or b a) mb)
    (hp : PathsIn (Plain d) (.and a b)) :
    (Accepts E m1 d ↔ Accepts E m2 d) ∧ (Accepts E ma d ↔ Accepts E mb d) := by
  rw [h1.accepts hp, h2.accepts ⟨hp.2, hp.1⟩, h3.accepts hp, h4.accepts ⟨hp.2, hp.1⟩]
  simp only [Sat]; tauto

/-- **C20.** Distributivity. -/
theorem C20_distributive (h1 : Ready E (.and a (.or b c)) m1)
    (h2 : Ready E (.or (.and a b) (.and a c)) m2) (hp : PathsIn (Plain d) (.and a (.or b c))) :
    Accepts E m1 d ↔ Accepts E m2 d := by
  rw [h1.accepts hp, h2.accepts ⟨⟨hp.1, hp.2.1⟩, ⟨hp.1, hp.2.2⟩⟩]; simp only [Sat]; tauto

/-- **C20.** Double negation. -/
theorem C20_double_negation (h1 : Ready E (.not (.not a)) m1) (h2 : Ready E a m2)
    (hp : PathsIn (Plain d) a) : Accepts E m1 d ↔ Accepts E m2 d := by
  rw [h1.accepts hp, h2.accepts hp]; simp only [Sat]; tauto

/-! ### C21 - C27 -/

variable {f : List Str} {vs : List Val} {op : Op} {pos pos' : Pos}

/-- **C21.** `f:(v1,...,vn)` matches iff some `f:vi` does. -/
theorem C21_set_is_disjunction (h : Ready E (.expr .EQ f vs pos) m) (ms : Val → Matcher)
    (hv : ∀ v ∈ vs, Ready E (.expr .EQ f [v] pos) (ms v)) (hp : Plain d f) :
    Accepts E m d ↔ ∃ v ∈ vs, Accepts E (ms v) d := by
  rw [h.accepts hp, Sat]
  constructor
  · rintro ⟨v, hm, s, hs, he⟩
    refine ⟨v, hm, ?_⟩
    rw [(hv v hm).accepts hp]
    exact ⟨v, by simp, s, hs, he⟩
  · rintro ⟨v, hm, ha⟩
    rw [(hv v hm).accepts hp] at ha
    obtain ⟨v', hv', s, hs, he⟩ := ha
    simp only [List.mem_singleton] at hv'
    subst hv'
    exact ⟨v', hm, s, hs, he⟩

example : ∃ m, Ready testEnv (.expr .EQ ["a".toList] [.int 1 "1".toList noPosition,
    .str "x".toList noPosition, .bool true noPosition] noPosition) m :=
  ready_of_compiles testEnv (by decide +kernel) ⟨trivial, by simp [LitsIn, LitOk]⟩

/-- **C22.** `f:~V` and `f:V` match the same documents. -/
theorem C22_similar_is_equal (h1 : Ready E (.expr .SIM f vs pos) m1)
    (h2 : Ready E (.expr .EQ f vs pos') m2) (hp : Plain d f) :
    Accepts E m1 d ↔ Accepts E m2 d := by
  rw [h1.accepts hp, h2.accepts hp]; rfl

/-- **C22.** Whatever the typing rules accept with `~` they accept without, unless both booleans are
listed. -/
theorem C22_similar_accepted_as_equal (h : ExprOk E .SIM vs)
    (hb : ¬ ("true".toList ∈ vs.map (Val.toStr E) ∧ "false".toList ∈ vs.map (Val.toStr E))) :
    ExprOk E .EQ vs :=
  ⟨h.arity, fun _ _ => trivial, h.distinct, fun _ => hb, fun _ _ h => by cases h⟩

example : ∃ m1 m2, Ready testEnv (.expr .SIM ["a".toList] [.str "x".toList noPosition] noPosition) m1 ∧
    Ready testEnv (.expr .EQ ["a".toList] [.str "x".toList noPosition] noPosition) m2 := by
  obtain ⟨m1, h1⟩ := ready_of_compiles testEnv
    (root := .expr .SIM ["a".toList] [.str "x".toList noPosition] noPosition) (by decide +kernel)
    ⟨trivial, by simp [LitsIn, LitOk]⟩
  obtain ⟨m2, h2⟩ := ready_of_compiles testEnv
    (root := .expr .EQ ["a".toList] [.str "x".toList noPosition] noPosition) (by decide +kernel)
    ⟨trivial, by simp [LitsIn, LitOk]⟩
  exact ⟨m1, m2, h1, h2⟩

/-- **C23.** The values found for a path are exactly those of `Resolves`: object members, first of
a name, stepping through the object elements of arrays between segments. -/
theorem C23_field_resolution (E : Env) (d : Json) (path : List Str) (h : Plain d path) :
    ∃ vs, getField E path d = .ok vs ∧ ∀ v, v ∈ vs ↔ Resolves E d path v :=
  getField_spec E d path h

-- through an array of objects, skipping nested arrays; first duplicate wins
example : (getField testEnv ["a".toList, "b".toList]
    (.obj [("a".toList, .arr [.obj [("b".toList, .num "1".toList), ("b".toList, .null)], .null,
      .arr [.obj [("b".toList, .num "2".toList)]], .obj [("b".toList, .bool true)]])])).toOption.map
        List.length = some 2 := by decide +kernel

/-- **C24.** `f:exists` matches iff the path resolves to at least one value. -/
theorem C24_exists (h : Ready E (.expr .EXS f [] pos) m) (hp : Plain d f) :
    Accepts E m d ↔ ∃ v, Resolves E d f v := by
  rw [h.accepts hp, Sat]

/-- **C25.** `f:null` matches iff the path resolves, and only to nulls. -/
theorem C25_null (h : Ready E (.expr .NUL f [] pos) m) (hp : Plain d f) :
    Accepts E m d ↔ (∃ v, Resolves E d f v) ∧ ∀ v, Resolves E d f v → v = .null := by
  rw [h.accepts hp, Sat]

example : ∃ m1 m2, Ready testEnv (.expr .EXS ["a".toList] [] noPosition) m1 ∧
    Ready testEnv (.expr .NUL ["a".toList] [] noPosition) m2 ∧
    Resolves testEnv (.obj [("a".toList, .null)]) ["a".toList] .null := by
  obtain ⟨m1, h1⟩ := ready_of_compiles testEnv (root := .expr .EXS ["a".toList] [] noPosition)
    (by decide +kernel) ⟨trivial, by simp [LitsIn]⟩
  obtain ⟨m2, h2⟩ := ready_of_compiles testEnv (root := .expr .NUL ["a".toList] [] noPosition)
    (by decide +kernel) ⟨trivial, by simp [LitsIn]⟩
  exact ⟨m1, m2, h1, h2, .last ⟨[], _, [], rfl, rfl, by simp⟩⟩

/-- A comparison that looks at values. -/
def ValueOp (op : Op) : Prop := op ≠ .EXS ∧ op ≠ .NUL

/-- The comparison holds of one scalar. -/
def ScalarHolds (E : Env) (op : Op) (vs : List Val) (s : Json) : Prop :=
  match op with
  | .EQ | .SIM => ∃ v ∈ vs, EqHolds E v s
  | .LT | .LTE | .GT | .GTE => ∃ v ∈ vs, CmpHolds E op v s
  | .BET => ∃ a b, vs = [a, b] ∧ BetHolds E a b s
  | .EXS | .NUL => False

theorem sat_value (E : Env) (d : Json) (hop : ValueOp op) :
    Sat E d (.expr op f vs pos) ↔ ∃ s, ScalarUnder E d f s ∧ ScalarHolds E op vs s := by
  cases op with
  | EXS => exact absurd rfl hop.1
  | NUL => exact absurd rfl hop.2
  | BET =>
    simp only [Sat, ScalarHolds]
    constructor
    · rintro ⟨a, b, hv, s, hs, h⟩; exact ⟨s, hs, a, b, hv, h⟩
    · rintro ⟨s, hs, a, b, hv, h⟩; exact ⟨a, b, hv, s, hs, h⟩
  | _ =>
    simp only [Sat, ScalarHolds]
    constructor
    · rintro ⟨v, hv, s, hs, h⟩; exact ⟨s, hs, v, hv, h⟩
    · rintro ⟨s, hs, v, hv, h⟩; exact ⟨v, hv, s, hs, h⟩

theorem scalarHolds_not_null (E : Env) (op : Op) (vs : List Val) : ¬ ScalarHolds E op vs .null := by
  have ht : ∀ t, ¬ TextOf E .null t := fun t h => by cases h
  have hn : ∀ f, ¬ NumberOf E .null f := fun f h => by cases h
  have hd : ∀ w, ¬ NanosOf E .null w := fun w ⟨t, _, h, _⟩ => ht t h
  have heq : ∀ v, ¬ EqHolds E v .null := by
    intro v h
    cases v with
    | time sv t d p =>
      cases d
      · obtain ⟨w, h, _⟩ := h; exact hd w h
      · obtain ⟨w, _, _, h, _⟩ := h; exact hd w h
    | bool b p => cases h
    | int i sv p => obtain ⟨_, _, h, _⟩ := h; exact hn _ h
    | float i p => obtain ⟨_, _, h, _⟩ := h; exact hn _ h
    | str i p => obtain ⟨_, h, _⟩ := h; exact ht _ h
    | regex i sv p => obtain ⟨_, h, _⟩ := h; exact ht _ h
    | net i sv p => obtain ⟨_, h, _⟩ := h; exact ht _ h
  have hcmp : ∀ op v, ¬ CmpHolds E op v .null := by
    rintro op v (⟨_, _, h, _⟩ | ⟨_, _, _, _, _, _, _, h, _⟩)
    · exact hn _ h
    · exact hd _ h
  intro h
  cases op with
  | EQ => obtain ⟨v, _, h⟩ := h; exact heq v h
  | SIM => obtain ⟨v, _, h⟩ := h; exact heq v h
  | LT => obtain ⟨v, _, h⟩ := h; exact hcmp _ v h
  | LTE => obtain ⟨v, _, h⟩ := h; exact hcmp _ v h
  | GT => obtain ⟨v, _, h⟩ := h; exact hcmp _ v h
  | GTE => obtain ⟨v, _, h⟩ := h; exact hcmp _ v h
  | BET =>
    obtain ⟨a, b, _, h⟩ := h
    rcases h with ⟨_, _, _, h, _⟩ | ⟨_, _, _, _, _, _, _, _, _, _, _, _, _, h, _⟩
    · exact hn _ h
    · exact hd _ h
  | EXS => exact h
  | NUL => exact h

/-- **C26.** Any comparison that matches implies `exists` on the same field. -/
theorem C26_comparison_implies_exists (h : Ready E (.expr op f vs pos) m)
    (he : Ready E (.expr .EXS f [] pos') m1) (hp : Plain d f) (ha : Accepts E m d) :
    Accepts E m1 d := by
  rw [C24_exists he hp]
  rw [h.accepts hp] at ha
  by_cases h1 : op = .EXS
  · subst h1; exact ha
  by_cases h2 : op = .NUL
  · subst h2; exact ha.1
  · obtain ⟨s, ⟨_, hs⟩, _⟩ := (sat_value E d ⟨h1, h2⟩).1 ha
    rcases hs with hs | ⟨items, hs, _⟩
    · exact ⟨_, hs⟩
    · exact ⟨_, hs⟩

/-- **C26.** If `null` matches, no value comparison on that field does. -/
theorem C26_null_excludes_values (h : Ready E (.expr op f vs pos) m) (hop : ValueOp op)
    (hn : Ready E (.expr .NUL f [] pos') m1) (hp : Plain d f) (ha : Accepts E m1 d) :
    ¬ Accepts E m d := by
  rw [C25_null hn hp] at ha
  rw [h.accepts hp, sat_value E d hop]
  rintro ⟨s, ⟨_, hs | ⟨items, hs, _⟩⟩, h⟩
  · have := ha.2 s hs
    subst this
    exact scalarHolds_not_null E op vs h
  · have := ha.2 _ hs
    cases this

/-- **C27.** A value comparison matches a document iff it matches the document that holds just one
scalar, for some scalar the path resolves to or that is a direct element of an array it resolves
to. -/
theorem C27_existential_over_scalars {k raw : Str} (hk : E.unescape raw = some k)
    (h : Ready E (.expr op f vs pos) m) (h1 : Ready E (.expr op [k] vs pos') m1)
    (hop : ValueOp op) (hp : Plain d f) :
    Accepts E m d ↔ ∃ s, ScalarUnder E d f s ∧ Accepts E m1 (.obj [(raw, s)]) := by
  have hf : ∀ s v, FirstMember E [(raw, s)] k v ↔ v = s := by
    intro s v
    constructor
    · rintro ⟨pre, raw', post, he, _, _⟩
      cases pre with
      | nil => simp at he; exact he.1.2.symm
      | cons p pre => simp at he
    · rintro rfl; exact ⟨[], raw, [], rfl, hk, by simp⟩
  have hres : ∀ s v, Resolves E (.obj [(raw, s)]) [k] v ↔ v = s := by
    intro s v
    constructor
    · intro h; cases h with | last h => exact (hf s v).1 h
    · rintro rfl; exact .last ((hf _ _).2 rfl)
  rw [h.accepts hp, sat_value E d hop]
  constructor
  · rintro ⟨s, hs, hh⟩
    refine ⟨s, hs, ?_⟩
    rw [h1.accepts (d := .obj [(raw, s)]) ⟨k, [], rfl, by simp⟩, sat_value E _ hop]
    exact ⟨s, ⟨hs.1, Or.inl ((hres s s).2 rfl)⟩, hh⟩
  · rintro ⟨s, hs, hh⟩
    rw [h1.accepts (d := .obj [(raw, s)]) ⟨k, [], rfl, by simp⟩, sat_value E _ hop] at hh
    obtain ⟨s', ⟨_, hs'⟩, hh⟩ := hh
    rcases hs' with hs' | ⟨items, hs', _⟩
    · rw [hres] at hs'; subst hs'; exact ⟨s', hs, hh⟩
    · rw [hres] at hs'; subst hs'; exact absurd hs.1 (by simp [IsScalar])

example : ScalarUnder testEnv (.obj [("a".toList, .arr [.num "1".toList, .null, .arr []])])
    ["a".toList] (.num "1".toList) :=
  ⟨trivial, Or.inr ⟨_, .last ⟨[], _, [], rfl, rfl, by simp⟩, by simp⟩⟩

/-! ### C37 -/

/-- **C37.** If the only value under the path is a JSON boolean, a value comparison matches iff it
is an equality listing that boolean. -/
theorem C37_booleans {bv : Bool} (h : Ready E (.expr op f vs pos) m) (hop : ValueOp op)
    (hp : Plain d f) (hd : ∀ s, ScalarUnder E d f s ↔ s = .bool bv) :
    Accepts E m d ↔ (op = .EQ ∨ op = .SIM) ∧ ∃ p, .bool bv p ∈ vs := by
  have ht : ∀ t, ¬ TextOf E (.bool bv) t := fun t h => by cases h
  have hn : ∀ f, ¬ NumberOf E (.bool bv) f := fun f h => by cases h
  have hdt : ∀ w, ¬ NanosOf E (.bool bv) w := fun w ⟨t, _, h, _⟩ => ht t h
  have heq : ∀ v, EqHolds E v (.bool bv) ↔ ∃ p, v = .bool bv p := by
    intro v
    constructor
    · intro h
      cases v with
      | time sv t d p =>
        cases d
        · obtain ⟨w, h, _⟩ := h; exact absurd h (hdt w)
        · obtain ⟨w, _, _, h, _⟩ := h; exact absurd h (hdt w)
      | bool b p => cases h; exact ⟨p, rfl⟩
      | int i sv p => obtain ⟨_, _, h, _⟩ := h; exact absurd h (hn _)
      | float i p => obtain ⟨_, _, h, _⟩ := h; exact absurd h (hn _)
      | str i p => obtain ⟨_, h, _⟩ := h; exact absurd h (ht _)
      | regex i sv p => obtain ⟨_, h, _⟩ := h; exact absurd h (ht _)
      | net i sv p => obtain ⟨_, h, _⟩ := h; exact absurd h (ht _)
    · rintro ⟨p, rfl⟩; rfl
  have hcmp : ∀ op v, ¬ CmpHolds E op v (.bool bv) := by
    rintro op v (⟨_, _, h, _⟩ | ⟨_, _, _, _, _, _, _, h, _⟩)
    · exact hn _ h
    · exact hdt _ h
  have hset : (∃ v ∈ vs, EqHolds E v (.bool bv)) ↔ ∃ p, Val.bool bv p ∈ vs := by
    simp only [heq]
    constructor
    · rintro ⟨v, hv, p, rfl⟩; exact ⟨p, hv⟩
    · rintro ⟨p, hv⟩; exact ⟨_, hv, p, rfl⟩
  rw [h.accepts hp, sat_value E d hop]
  simp only [hd, exists_eq_left]
  cases op with
  | EQ => simp only [ScalarHolds, hset]; simp
  | SIM => simp only [ScalarHolds, hset]; simp
  | BET =>
    simp only [ScalarHolds, reduceCtorEq, or_self, false_and, iff_false]
    rintro ⟨a, b, _, ⟨_, _, _, h, _⟩ | ⟨_, _, _, _, _, _, _, _, _, _, _, _, _, h, _⟩⟩
    · exact hn _ h
    · exact hdt _ h
  | EXS => exact absurd rfl hop.1
  | NUL => exact absurd rfl hop.2
  | LT => simp only [ScalarHolds, hcmp]; simp
  | LTE => simp only [ScalarHolds, hcmp]; simp
  | GT => simp only [ScalarHolds, hcmp]; simp
  | GTE => simp only [ScalarHolds, hcmp]; simp

/-- **C37.** A boolean literal matches only JSON booleans of its value, on every document. -/
theorem C37_boolean_literal {bv : Bool} {p : Pos} (h : Ready E (.expr .EQ f [.bool bv p] pos) m)
    (hp : Plain d f) : Accepts E m d ↔ ScalarUnder E d f (.bool bv) := by
  rw [h.accepts hp, Sat]
  constructor
  · rintro ⟨v, hv, s, hs, he⟩
    simp only [List.mem_singleton] at hv; subst hv
    cases he; exact hs
  · intro hs; exact ⟨.bool bv p, List.mem_singleton.2 rfl, .bool bv, hs, rfl⟩

/-- **C37.** Null scalars (also inside an array) are matched by no value comparison: if all scalars
under the path are null nothing matches. -/
theorem C37_nulls (h : Ready E (.expr op f vs pos) m) (hop : ValueOp op) (hp : Plain d f)
    (hd : ∀ s, ScalarUnder E d f s → s = .null) : ¬ Accepts E m d := by
  rw [h.accepts hp, sat_value E d hop]
  rintro ⟨s, hs, hh⟩
  have := hd s hs; subst this
  exact scalarHolds_not_null E op vs hh

/-- **C37.** If the path resolves only to objects (or nothing), only `exists` can match. -/
theorem C37_objects (h : Ready E (.expr op f vs pos) m) (hp : Plain d f)
    (hd : ∀ v, Resolves E d f v → ∃ ms, v = .obj ms) (ha : Accepts E m d) : op = .EXS := by
  rw [h.accepts hp] at ha
  by_contra h1
  by_cases h2 : op = .NUL
  · subst h2
    obtain ⟨⟨v, hv⟩, hall⟩ := ha
    obtain ⟨ms, rfl⟩ := hd v hv
    have := hall _ hv; cases this
  · obtain ⟨s, ⟨hsc, hs⟩, _⟩ := (sat_value E d ⟨h1, h2⟩).1 ha
    rcases hs with hs | ⟨items, hs, _⟩
    · obtain ⟨ms, rfl⟩ := hd s hs; exact hsc
    · obtain ⟨ms, h⟩ := hd _ hs; cases h

example : ∃ m, Ready testEnv (.expr .EQ ["a".toList] [.bool true noPosition] noPosition) m ∧
    ∀ s, ScalarUnder testEnv (.obj [("a".toList, .bool true)]) ["a".toList] s ↔ s = .bool true := by
  obtain ⟨m, hm⟩ := ready_of_compiles testEnv
    (root := .expr .EQ ["a".toList] [.bool true noPosition] noPosition) (by decide +kernel)
    ⟨trivial, by simp [LitsIn, LitOk]⟩
  have hr : ∀ v, Resolves testEnv (.obj [("a".toList, .bool true)]) ["a".toList] v ↔ v = .bool true := by
    intro v
    constructor
    · intro h
      cases h with
      | last h =>
        rw [← getMember_iff] at h
        have : getMember testEnv "a".toList [("a".toList, Json.bool true)] = some (.bool true) := by
          simp [getMember, testEnv]
        rw [this] at h; cases h; rfl
    · rintro rfl; exact .last ⟨[], _, [], rfl, rfl, by simp⟩
  refine ⟨m, hm, fun s => ⟨?_, ?_⟩⟩
  · rintro ⟨_, h | ⟨items, h, _⟩⟩
    · exact (hr s).1 h
    · have := (hr _).1 h; cases this
  · rintro rfl; exact ⟨trivial, Or.inl ((hr _).2 rfl)⟩

end Aql
