import Verif.Props.Grammar
import Verif.Props.Validation
import Verif.Proofs.Compile
import Verif.Proofs.Blame
/-!
Properties C59 - C62: from the text of a query to the answers of its matcher.
-/

namespace Aql

open Spec

variable (E : Env)

/-! ### C59 -/

/-- **C59.** If NewMatcher returns a matcher for some bytes, they are the UTF-8 encoding of a text of
the query language whose comparisons obey the typing rules, GetQuery returns the text, and on every
document (whose paths are plain) the matcher answers with the meaning of the tree that the text
denotes, in any later state of the matcher. -/
theorem C59_matcher_means_text (query : List UInt8) (m : Matcher) (msgs : List Msg)
    (h : newMatcher E query = some (.ok (.ok (m, msgs)))) :
    ∃ s n, query = utf8 s ∧ Query E s n ∧ AllOk E n ∧ m.getQuery = s ∧
      ∀ (later : Matcher) (d : Json), later.root = m.root → PathsIn (Plain d) n →
        ((later.match E (.valid d)).2 = .result true ∧ Sat E d n) ∨
        ((later.match E (.valid d)).2 = .result false ∧ ¬ Sat E d n) := by
  unfold newMatcher at h
  rcases hg : grammarOut E (decode query) with _ | ⟨e | n⟩
  · rw [hg] at h; cases h
  · rw [hg] at h
    simp only [Option.map_some, Option.some.injEq] at h
    cases h
  · rw [hg] at h
    simp only [Option.map_some, Option.some.injEq] at h
    obtain ⟨s, hs, hq⟩ := C03_accepted_is_sentence E query n hg
    obtain ⟨hok, hb⟩ := newMatcherFrom_ok E h
    have hrunes : (decode query).map Sym.rune = s := by
      rw [hs, decode_utf8]; simp [List.map_map, Function.comp_def, Sym.rune]
    refine ⟨s, n, hs, hq, hok, ?_, ?_⟩
    · rw [newMatcherFrom_eq, (verdicts_none E n).2 hok, hb, hrunes] at h
      rcases hm : msgRun E (comparisons n) with ⟨ms, _ | e⟩
      · rw [hm] at h
        simp only [Except.ok.injEq, Prod.mk.injEq] at h
        rw [← h.1]; rfl
      · rw [hm] at h; cases h
    · intro later d hl hp
      have hr : Ready E n later := ⟨⟨_, _, m, h, hl⟩, C01_accepted_from_grammar E query n hg⟩
      obtain ⟨⟨b, hb⟩, hi⟩ := hr.answer hp
      unfold Accepts at hi
      rw [hb] at hi ⊢
      cases b with
      | true => exact .inl ⟨rfl, hi.1 rfl⟩
      | false => exact .inr ⟨rfl, fun h => by have := hi.2 h; simp at this⟩

/-- **C59.** Every text of the query language whose comparisons obey the typing rules gets a matcher
(the library must be able to parse the regular expressions it compiled once more for the hints), and
bytes that are not such a text get an error. -/
theorem C59_who_gets_a_matcher (query : List UInt8) :
    (∀ s n, query = utf8 s → Query E s n → AllOk E n → LitsIn (ReParses E) n →
      ∃ m msgs, newMatcher E query = some (.ok (.ok (m, msgs)))) ∧
    ((¬ ∃ s n, query = utf8 s ∧ Query E s n ∧ AllOk E n) → ∃ e, newMatcher E query = some (.ok (.error e))) := by
  constructor
  · rintro s n rfl hq hok hre
    have hg := C02_sentence_is_accepted E s n hq
    obtain ⟨hns, hl⟩ := C01_accepted_from_grammar E _ n hg
    obtain ⟨b, hb, -⟩ := build_spec E n hok hns hl
    unfold newMatcher
    rw [hg, Option.map_some, newMatcherFrom_eq, (verdicts_none E n).2 hok, hb]
    have hm := messages_ok E hre
    have : (msgRun E (comparisons n)).2 = none := by
      rw [← msgRun_preorder]
      have : ∀ xs : List (Node × Nat), (∀ x ∈ xs, (messageVisitorFn E x.1).2 = none) →
          (msgRun E (xs.map Prod.fst)).2 = none := by
        intro xs
        induction xs with
        | nil => intro _; rfl
        | cons x xs ih =>
          intro h
          simp only [List.map_cons, msgRun]
          have := h x (by simp)
          rcases hx : messageVisitorFn E x.1 with ⟨ms, _ | e⟩
          · exact ih fun y hy => h y (by simp [hy])
          · rw [hx] at this; cases this
      exact this _ hm
    rcases hx : msgRun E (comparisons n) with ⟨ms, _ | e⟩
    · exact ⟨_, _, rfl⟩
    · rw [hx] at this; cases this
  · intro h
    obtain ⟨r, hr⟩ := C18_newMatcher_on_bytes E query
    rcases r with e | ⟨m, msgs⟩
    · exact ⟨e, hr⟩
    · obtain ⟨s, n, h1, h2, h3, -⟩ := C59_matcher_means_text E query m msgs hr
      exact absurd ⟨s, n, h1, h2, h3⟩ h

/-- Whether the text gets a matcher and how it answers on a document. -/
def answerOf (E : Env) (s : Str) (d : Json) : Option Bool :=
  match newMatcher E (utf8 s) with
  | some (.ok (.ok (m, _))) =>
    match (m.match E (.valid d)).2 with
    | .result b => some b
    | _ => none
  | _ => none

/-- A document for the examples. -/
def exampleDoc : Json := .obj [("x".toList, .num "2.5".toList), ("k".toList, .str "u v".toList), ("y".toList, .arr [.num "7".toList])]

-- queries that match and do not match
example : answerOf testEnv "x:>2.5 OR k:null".toList exampleDoc = some false ∧
    answerOf testEnv "x:>2 AND y:(6, 7)".toList exampleDoc = some true := by
  decide +kernel

/-! ### C60 -/

/-- **C60.** White space, redundant parentheses, quotes around names, `*` segments and the choice
between `NOT` and `!` make no difference: texts whose tokens have the same tree get the same outcome,
either the same error text, or equal compiled matchers and the same messages (up to positions). -/
theorem C60_layout_irrelevant (c c' : Cst) (s t : Str) (hs : LaidOut E c s) (ht : LaidOut E c' t)
    (h : c.tree = c'.tree) :
    (newMatcher E (utf8 s)).map (Except.map outcome) = (newMatcher E (utf8 t)).map (Except.map outcome) := by
  obtain ⟨n, hn, hb⟩ := C02_tree_of_tokens E c s hs
  obtain ⟨m, hm, hb'⟩ := C02_tree_of_tokens E c' t ht
  unfold newMatcher
  rw [hn, hm, Option.map_some, Option.map_some, Option.map_some, Option.map_some]
  rw [← newMatcherFrom_bare [] _ n, ← newMatcherFrom_bare [] _ m, hb, hb', h]

/-- **C60.** Hence they answer alike on every document, panics included, and count alike. -/
theorem C60_same_answers (c c' : Cst) (s t : Str) (hs : LaidOut E c s) (ht : LaidOut E c' t)
    (h : c.tree = c'.tree) (m : Matcher) (msgs : List Msg)
    (hm : newMatcher E (utf8 s) = some (.ok (.ok (m, msgs)))) :
    ∃ m' msgs', newMatcher E (utf8 t) = some (.ok (.ok (m', msgs'))) ∧ msgs.map Msg.bare = msgs'.map Msg.bare ∧
      ∀ doc, (m.match E doc).2 = (m'.match E doc).2 ∧ (m.match E doc).1.counters = (m'.match E doc).1.counters := by
  have he := C60_layout_irrelevant E c c' s t hs ht h
  rw [hm] at he
  obtain ⟨r, hr⟩ := C18_newMatcher_on_bytes E (utf8 t)
  rw [hr] at he
  simp only [Option.map_some, Except.map, Option.some.injEq, Except.ok.injEq] at he
  rcases r with e | ⟨m', msgs'⟩
  · simp [outcome] at he
  · simp only [outcome, Except.ok.injEq, Prod.mk.injEq] at he
    refine ⟨m', msgs', hr, he.2, fun doc => ?_⟩
    have fresh : ∀ q s ms, newMatcher E q = some (.ok (.ok (s, ms))) → s.counters = Counters.zero := by
      intro q s ms hq
      unfold newMatcher at hq
      rcases hg : grammarOut E (decode q) with _ | ⟨e | n⟩
      · rw [hg] at hq; cases hq
      · rw [hg] at hq; simp only [Option.map_some, Option.some.injEq] at hq; cases hq
      · rw [hg, Option.map_some, newMatcherFrom_eq] at hq
        simp only [Option.some.injEq] at hq
        rcases h1 : (comparisons n).findSome? (verdict E) with _ | e
        · rw [h1] at hq
          rcases h2 : msgRun E (comparisons n) with ⟨ms, _ | e⟩
          · rw [h2] at hq
            rcases h3 : build E n with p | b
            · rw [h3] at hq; cases hq
            · rw [h3] at hq; cases hq; rfl
          · rw [h2] at hq; cases hq
        · rw [h1] at hq; cases hq
    have h1 := fresh _ _ _ hm
    have h2 := fresh _ _ _ hr
    cases doc with
    | invalid => exact ⟨rfl, by simp [Matcher.match, h1, h2]⟩
    | valid d =>
      simp only [Matcher.match, he.1, h1, h2]
      rcases m'.root.result E d [] with ⟨ts, _ | b⟩ <;> exact ⟨rfl, rfl⟩

-- two layouts of the same tokens, up to parentheses and quotes
example : ((grammarOut testEnv (decode (utf8 "a.b:1 AND NOT (c:exists OR d:2)".toList))).map fun r =>
      match r with | .ok n => some (bare n) | .error _ => none) =
    ((grammarOut testEnv (decode (utf8 "( a.*.\"b\" : 1 )\nAND !( c:exists OR d : 2 )".toList))).map fun r =>
      match r with | .ok n => some (bare n) | .error _ => none) := by
  decide +kernel

/-! ### C61 -/

/-- **C61.** A syntactically correct query that breaks a typing rule is rejected with an error at the
piece of text to blame: `c` is its first comparison that breaks a rule, written as `t` after `p`, the
error is at the position that `Blames` singles out, and that is the position of `t` or of the text `u` of
one of its values. -/
theorem C61_validation_error_position {σ : Type} (visitors : List (Visitor σ)) (st : VState σ)
    (query : List UInt8) (n : Node) (hn : grammarOut E (decode query) = some (.ok n)) (hbad : ¬ AllOk E n) :
    ∃ s e, query = utf8 s ∧ parseQuery E visitors st query = some (.ok (st, .error e)) ∧
      newMatcher E query = some (.ok (.error e)) ∧
      ∃ before c after op f vs p t rest, comparisons n = before ++ c :: after ∧ (∀ x ∈ before, AllOk E x) ∧
        c = .expr op f vs (posAt p t) ∧ s = p ++ (t ++ rest) ∧ Text E .cmp p t c ∧
        Blames E op vs (posAt p t) e.pos ∧
        (e.pos = posAt p t ∨
          ∃ v ∈ vs, ∃ q u rest', s = q ++ (u ++ rest') ∧ e.pos = posAt q u ∧ Lit E q u v) := by
  obtain ⟨s, hs, hpos⟩ := C05_positions_exact E query n hn
  obtain ⟨e, he, before, c, after, h1, h2, h3, h4⟩ := finishParse_rejected E visitors st n hbad
  refine ⟨s, e, hs, ?_, ?_, before, c, after, ?_⟩
  · unfold parseQuery
    rw [hn, Option.map_some, he]
  · unfold newMatcher
    rw [hn, Option.map_some, newMatcherFrom_eq]
    have hf : (comparisons n).findSome? (verdict E) = some e := by
      rw [List.findSome?_eq_some_iff]
      refine ⟨before, c, after, h1, ?_, ?_⟩
      · rw [opValidator_verdict] at h4
        exact Except.ok.inj h4
      · intro x hx
        exact (verdict_none_iff (n := n) E (by rw [h1]; simp [hx])).2 (h2 x hx)
    rw [hf]
  · obtain ⟨op, f, vs, p, t, rest, h5, h6, h7, h8⟩ := hpos c (by rw [h1]; simp)
    have hb : Blames E op vs (posAt p t) e.pos := by
      rw [h5] at h4
      exact validateExpr_blames h4
    refine ⟨op, f, vs, p, t, rest, h1, h2, h5, h6, h7, hb, ?_⟩
    have lit : ∀ v ∈ vs, ∃ q u rest', s = q ++ (u ++ rest') ∧ v.pos = posAt q u ∧ Lit E q u v := by
      intro v hv
      obtain ⟨q, u, post', a, b, -, d⟩ := h8 v hv
      exact ⟨q, u, post' ++ rest, by rw [h6, ← List.append_assoc, b]; simp, a, d⟩
    generalize e.pos = ep at hb ⊢
    cases hb with
    | @operand l v r _ _ h => exact .inr ⟨v, by rw [h]; simp, lit v (by rw [h]; simp)⟩
    | arity => exact .inl rfl
    | @value l v r _ _ h => exact .inr ⟨v, by rw [h]; simp, lit v (by rw [h]; simp)⟩
    | @order a b _ _ _ h => exact .inr ⟨b, by rw [h]; simp, lit b (by rw [h]; simp)⟩

/-- **C61.** The piece to blame is unique, so the theorem above determines the position. -/
theorem C61_blame_is_unique (op : Op) (vs : List Val) (pos p p' : Pos) (h : Blames E op vs pos p)
    (h' : Blames E op vs pos p') : p = p' := blames_unique h h'

/-- Position and text of the error if the text is rejected. -/
def rejection (E : Env) (s : Str) : Option (Pos × Str) :=
  match newMatcher E (utf8 s) with
  | some (.ok (.error e)) => some (e.pos, e.msg)
  | _ => none

-- the repeated value on the second line; the whole comparison; the second bound; the string
example : rejection testEnv "a:1 AND\n b:(5,6, 5)".toList =
      some (⟨2, 10, 17, 1⟩, "duplicate argument [5] (value 3/3)".toList) ∧
    rejection testEnv "a:1 AND b:><(1,2,3)".toList =
      some (⟨1, 9, 8, 11⟩, "[><] operation requires exactly 2 arguments".toList) ∧
    rejection testEnv "b:><(2,1)".toList =
      some (⟨1, 8, 7, 1⟩, "[><] operation requires the second argument be greater".toList) ∧
    rejection testEnv "b:<\"é\"".toList =
      some (⟨1, 4, 3, 3⟩, "[<] operation needs numeric arguments".toList) := by
  decide +kernel

/-! ### C62 -/

/-- **C62.** Every message of a matcher is at the text of a value of the query: the position is that of
a literal `u` after `q`, whose comparison is part of the query. No message is an error. -/
theorem C62_message_positions (query : List UInt8) (m : Matcher) (msgs : List Msg)
    (h : newMatcher E query = some (.ok (.ok (m, msgs)))) : ∃ s n, query = utf8 s ∧ Query E s n ∧
      ∀ x ∈ msgs, x.type ≠ .error ∧ ∃ op f vs p, .expr op f vs p ∈ comparisons n ∧
        ∃ v ∈ vs, ∃ q u rest, s = q ++ (u ++ rest) ∧ Lit E q u v ∧ x.pos = posAt q u := by
  unfold newMatcher at h
  rcases hg : grammarOut E (decode query) with _ | ⟨e | n⟩
  · rw [hg] at h; cases h
  · rw [hg] at h
    simp only [Option.map_some, Option.some.injEq] at h
    cases h
  · obtain ⟨s', hs', hq⟩ := C03_accepted_is_sentence E query n hg
    obtain ⟨s, hs, hpos⟩ := C05_positions_exact E query n hg
    have hss : s' = s := by
      have := decode_utf8 s'
      rw [← hs', hs, decode_utf8] at this
      exact (map_ok_inj this).symm
    subst hss
    refine ⟨s', n, hs, hq, ?_⟩
    rw [hg, Option.map_some, newMatcherFrom_eq] at h
    simp only [Option.some.injEq] at h
    rcases h1 : (comparisons n).findSome? (verdict E) with _ | e
    · rw [h1] at h
      rcases h2 : msgRun E (comparisons n) with ⟨ms, _ | e⟩
      · rw [h2] at h
        rcases h3 : build E n with p | b
        · rw [h3] at h; cases h
        · rw [h3] at h
          simp only [Except.ok.injEq, Prod.mk.injEq] at h
          obtain ⟨-, rfl⟩ := h
          have run : ∀ xs : List Node, ∀ x ∈ (msgRun E xs).1, ∃ c ∈ xs, x ∈ (messageVisitorFn E c).1 := by
            intro xs
            induction xs with
            | nil => intro x hx; cases hx
            | cons c xs ih =>
              intro x hx
              simp only [msgRun] at hx
              rcases hc : messageVisitorFn E c with ⟨ms, _ | e⟩
              · rw [hc] at hx
                rcases List.mem_append.1 hx with hx | hx
                · exact ⟨c, by simp, by rw [hc]; exact hx⟩
                · obtain ⟨c', h1, h2⟩ := ih x hx
                  exact ⟨c', by simp [h1], h2⟩
              · rw [hc] at hx
                exact ⟨c, by simp, by rw [hc]; exact hx⟩
          have val : ∀ op f v, ∀ x ∈ (valMessages E op f v).1, x.type ≠ .error ∧ x.pos = v.pos := by
            intro op f v x hx
            cases v with
            | str sv pos =>
              simp only [valMessages] at hx
              split at hx
              · cases List.mem_singleton.1 hx; exact ⟨by simp, rfl⟩
              · cases hx
            | time sv t d pos =>
              simp only [valMessages] at hx
              split at hx
              · cases List.mem_singleton.1 hx; exact ⟨by simp, rfl⟩
              · cases hx
            | regex sv src pos =>
              have piece : ∀ (b : Prop) [Decidable b] (y : Msg), y.type ≠ .error → y.pos = pos →
                  ∀ z ∈ (if b then [y] else []), z.type ≠ .error ∧ z.pos = pos := by
                intro b _ y h1 h2 z hz
                split at hz
                · cases List.mem_singleton.1 hz; exact ⟨h1, h2⟩
                · cases hz
              have hints : ∀ reg, ∀ z ∈ reHints E f src pos reg, z.type ≠ .error ∧ z.pos = pos := by
                intro reg z hz
                unfold reHints at hz
                dsimp only at hz
                generalize (if (reg.subs.length == 1 && reg.op == opCapture) = true then reg.subs.headD reg else reg) = reg' at hz
                rcases List.mem_append.1 hz with hz | hz
                · rcases List.mem_append.1 hz with hz | hz
                  · exact piece _ _ (by simp) rfl z hz
                  · exact piece _ _ (by simp) rfl z hz
                · by_cases h2 : 2 ≤ reg'.subs.length
                  · rw [if_pos h2] at hz
                    rcases List.mem_append.1 hz with hz | hz
                    · exact piece _ _ (by simp) rfl z hz
                    · exact piece _ _ (by simp) rfl z hz
                  · rw [if_neg h2] at hz; cases hz
              simp only [valMessages] at hx
              cases hre : E.reSyntax src with
              | none =>
                rw [hre] at hx
                rcases List.mem_append.1 hx with hx | hx
                · rcases List.mem_append.1 hx with hx | hx
                  · exact piece _ _ (by simp) rfl x hx
                  · exact piece _ _ (by simp) rfl x hx
                · exact piece _ _ (by simp) rfl x hx
              | some reg =>
                rw [hre] at hx
                rcases List.mem_append.1 hx with hx | hx
                · rcases List.mem_append.1 hx with hx | hx
                  · rcases List.mem_append.1 hx with hx | hx
                    · exact piece _ _ (by simp) rfl x hx
                    · exact piece _ _ (by simp) rfl x hx
                  · exact piece _ _ (by simp) rfl x hx
                · exact hints reg x hx
            | _ => cases hx
          have expr : ∀ op f vs, ∀ x ∈ (exprMessages E op f vs).1, ∃ v ∈ vs, x.type ≠ .error ∧ x.pos = v.pos := by
            intro op f vs
            induction vs with
            | nil => intro x hx; cases hx
            | cons v vs ih =>
              intro x hx
              have hv := val op f v
              simp only [exprMessages] at hx
              rcases hm : valMessages E op f v with ⟨ms, _ | e⟩
              · rw [hm] at hx hv
                rcases List.mem_append.1 hx with hx | hx
                · exact ⟨v, by simp, hv x hx⟩
                · obtain ⟨w, h1, h2⟩ := ih x hx
                  exact ⟨w, by simp [h1], h2⟩
              · rw [hm] at hx hv
                exact ⟨v, by simp, hv x hx⟩
          intro x hx
          have hx' := run (comparisons n) x (by rw [h2]; exact hx)
          obtain ⟨c, hc, hxc⟩ := hx'
          obtain ⟨op, f, vs, p, t, post, rfl, e1, -, hl⟩ := hpos c hc
          obtain ⟨v, hv, ht, hp⟩ := expr op f vs x hxc
          obtain ⟨q, u, post', a, b, -, d⟩ := hl v hv
          exact ⟨ht, op, f, vs, _, hc, v, hv, q, u, post' ++ post, by rw [e1, ← List.append_assoc, b]; simp,
            d, by rw [hp, a]⟩
      · rw [h2] at h; cases h
    · rw [h1] at h; cases h

/-- Messages of the matcher for a text. -/
def messagesOf (E : Env) (s : Str) : List (Pos × Str) :=
  match newMatcher E (utf8 s) with
  | some (.ok (.ok (_, ms))) => ms.map fun m => (m.pos, m.text)
  | _ => []

example : messagesOf testEnv "a:1 AND b:~(\"x\", /y/)".toList =
    [(⟨1, 13, 12, 3⟩, simStringText), (⟨1, 18, 17, 3⟩, simRegexText)] := by
  decide +kernel

/-! ### C63 -/

/-- The text in parentheses. -/
def paren (s : Str) : Str := '(' :: (s ++ [')'])

theorem paren_laid {c : Cst} {s : Str} (h : LaidOut E c s) : Laid E .cmp (.group c) (paren s) := by
  obtain ⟨w1, q, w2, h1, h2, h3, rfl⟩ := h
  have := Laid.group h3 h1 h2
  simpa [paren] using this

theorem paren_and {c c' : Cst} {s t : Str} (h : LaidOut E c s) (h' : LaidOut E c' t) :
    LaidOut E (.and (.group c) (.group c')) (paren s ++ " AND ".toList ++ paren t) := by
  refine ⟨[], _, [], ws_nil, ws_nil, .andOr (.and (w1 := [' ']) (w2 := [' ']) (.cmpNot (paren_laid E h))
    (.notAnd (.cmpNot (paren_laid E h'))) (by decide) (by decide)), by simp⟩

theorem paren_or {c c' : Cst} {s t : Str} (h : LaidOut E c s) (h' : LaidOut E c' t) :
    LaidOut E (.or (.group c) (.group c')) (paren s ++ " OR ".toList ++ paren t) := by
  refine ⟨[], _, [], ws_nil, ws_nil, .or (w1 := [' ']) (w2 := [' ']) (.notAnd (.cmpNot (paren_laid E h)))
    (.andOr (.notAnd (.cmpNot (paren_laid E h')))) (by decide) (by decide), by simp⟩

theorem paren_not {c : Cst} {s : Str} (h : LaidOut E c s) :
    LaidOut E (.not false (.group c)) ("NOT ".toList ++ paren s) := by
  refine ⟨[], _, [], ws_nil, ws_nil, .andOr (.notAnd (.word (w := [' ']) (paren_laid E h) (by decide))), by simp⟩

variable {E} in
/-- A matcher's root is what the builder makes of the tokens. -/
theorem root_of_text {c : Cst} {s : Str} (hc : LaidOut E c s) {m : Matcher} {ms : List Msg}
    (h : newMatcher E (utf8 s) = some (.ok (.ok (m, ms)))) :
    build E c.tree = .ok m.root ∧ AllOk E c.tree ∧ (msgRun E (comparisons c.tree)).2 = none := by
  obtain ⟨n, hn, hb⟩ := C02_tree_of_tokens E c s hc
  unfold newMatcher at h
  rw [hn, Option.map_some] at h
  simp only [Option.some.injEq] at h
  have hr : (newMatcherFrom E [] (.ok c.tree)).map outcome = .ok (.ok (m.root, ms.map Msg.bare)) := by
    rw [← hb, newMatcherFrom_bare [] _ n, h]; rfl
  rw [newMatcherFrom_eq] at hr
  rcases h1 : (comparisons c.tree).findSome? (verdict E) with _ | e
  · rw [h1] at hr
    have hok := (verdicts_none E c.tree).1 h1
    rcases h2 : msgRun E (comparisons c.tree) with ⟨ms', _ | e⟩
    · rw [h2] at hr
      rcases h3 : build E c.tree with p | b
      · rw [h3] at hr; cases hr
      · rw [h3] at hr
        simp only [Except.map, outcome, Except.ok.injEq, Prod.mk.injEq] at hr
        exact ⟨by rw [hr.1], hok, rfl⟩
    · rw [h2] at hr; cases hr
  · rw [h1] at hr; cases hr

variable {E} in
theorem text_of_root {c : Cst} {s : Str} (hc : LaidOut E c s) {b : BoolNode} (h1 : build E c.tree = .ok b)
    (h2 : AllOk E c.tree) (h3 : (msgRun E (comparisons c.tree)).2 = none) :
    ∃ m ms, newMatcher E (utf8 s) = some (.ok (.ok (m, ms))) ∧ m.root = b := by
  obtain ⟨n, hn, hb⟩ := C02_tree_of_tokens E c s hc
  have hr : ∃ ms, newMatcherFrom E [] (.ok c.tree) = .ok (.ok (⟨b, [], Counters.zero⟩, ms)) := by
    rw [newMatcherFrom_eq, (verdicts_none E c.tree).2 h2, h1]
    rcases h4 : msgRun E (comparisons c.tree) with ⟨ms', _ | e⟩
    · exact ⟨_, rfl⟩
    · rw [h4] at h3; cases h3
  obtain ⟨ms, hr⟩ := hr
  obtain ⟨r, hr'⟩ := C18_newMatcher_on_bytes E (utf8 s)
  have hx := hr'
  unfold newMatcher at hr'
  rw [hn, Option.map_some] at hr'
  simp only [Option.some.injEq] at hr'
  have := newMatcherFrom_bare (E := E) [] ((decode (utf8 s)).map Sym.rune) n
  rw [hb, hr, hr'] at this
  simp only [Except.map, Except.ok.injEq] at this
  rcases r with e | ⟨m, ms'⟩
  · cases this
  · simp only [outcome, Except.ok.injEq, Prod.mk.injEq] at this
    exact ⟨m, ms', hx, this.1.symm⟩

/-- The outcome does not depend on the address of the counters. -/
theorem result_outcome (n : BoolNode) (d : Json) (a b : Addr) : (n.result E d a).2 = (n.result E d b).2 := by
  induction n generalizing a b with
  | and l r ihl ihr =>
    have h1 := ihl (a ++ [false]) (b ++ [false])
    have h2 := ihr (a ++ [true]) (b ++ [true])
    simp only [BoolNode.result]
    rcases hx1 : l.result E d (a ++ [false]) with ⟨t1, x1⟩
    rcases hx1' : l.result E d (b ++ [false]) with ⟨t1', x1'⟩
    rcases hx2 : r.result E d (a ++ [true]) with ⟨t2, x2⟩
    rcases hx2' : r.result E d (b ++ [true]) with ⟨t2', x2'⟩
    rw [hx1, hx1'] at h1
    rw [hx2, hx2'] at h2
    dsimp only at h1 h2
    subst h1; subst h2
    rcases x1 with e | _ | _ <;> rcases x2 with e | _ | _ <;> rfl
  | or l r ihl ihr =>
    have h1 := ihl (a ++ [false]) (b ++ [false])
    have h2 := ihr (a ++ [true]) (b ++ [true])
    simp only [BoolNode.result]
    rcases hx1 : l.result E d (a ++ [false]) with ⟨t1, x1⟩
    rcases hx1' : l.result E d (b ++ [false]) with ⟨t1', x1'⟩
    rcases hx2 : r.result E d (a ++ [true]) with ⟨t2, x2⟩
    rcases hx2' : r.result E d (b ++ [true]) with ⟨t2', x2'⟩
    rw [hx1, hx1'] at h1
    rw [hx2, hx2'] at h2
    dsimp only at h1 h2
    subst h1; subst h2
    rcases x1 with e | _ | _ <;> rcases x2 with e | _ | _ <;> rfl
  | not e ih =>
    have h1 := ih (a ++ [false]) (b ++ [false])
    simp only [BoolNode.result]
    rcases hx1 : e.result E d (a ++ [false]) with ⟨t1, x1⟩
    rcases hx1' : e.result E d (b ++ [false]) with ⟨t1', x1'⟩
    rw [hx1, hx1'] at h1
    dsimp only at h1
    subst h1
    rcases x1 with e | _ | _ <;> rfl
  | expr path es name =>
    simp only [BoolNode.result]
    rcases exprResult E path es d with e | r <;> rfl
  | nil => rfl

/-- **C63.** Texts of queries compose: if two texts get matchers, so do their parenthesised
conjunction and disjunction and the negation, and on every document on which both answer, the compound
answers accordingly. -/
theorem C63_texts_compose (s t : Str) (ms mt : Matcher) (xs xt : List Msg)
    (hs : newMatcher E (utf8 s) = some (.ok (.ok (ms, xs))))
    (ht : newMatcher E (utf8 t) = some (.ok (.ok (mt, xt)))) :
    ∃ ma mo mn xa xo xn,
      newMatcher E (utf8 (paren s ++ " AND ".toList ++ paren t)) = some (.ok (.ok (ma, xa))) ∧
      newMatcher E (utf8 (paren s ++ " OR ".toList ++ paren t)) = some (.ok (.ok (mo, xo))) ∧
      newMatcher E (utf8 ("NOT ".toList ++ paren s)) = some (.ok (.ok (mn, xn))) ∧
      ∀ d a b, (ms.match E (.valid d)).2 = .result a → (mt.match E (.valid d)).2 = .result b →
        (ma.match E (.valid d)).2 = .result (a && b) ∧ (mo.match E (.valid d)).2 = .result (a || b) ∧
        (mn.match E (.valid d)).2 = .result (!a) := by
  have laid : ∀ {s m x}, newMatcher E (utf8 s) = some (.ok (.ok (m, x))) → ∃ c, LaidOut E c s := by
    intro s m x h
    obtain ⟨s', n, h1, h2, -⟩ := C59_matcher_means_text E _ m x h
    have : s' = s := by
      have := decode_utf8 s'
      rw [← h1, decode_utf8] at this
      exact (map_ok_inj this).symm
    subst this
    obtain ⟨c, hc, -⟩ := query_laidOut h2
    exact ⟨c, hc⟩
  obtain ⟨c, hc⟩ := laid hs
  obtain ⟨c', hc'⟩ := laid ht
  obtain ⟨b1, o1, m1⟩ := root_of_text hc hs
  obtain ⟨b2, o2, m2⟩ := root_of_text hc' ht
  have hmm : (msgRun E (comparisons c.tree ++ comparisons c'.tree)).2 = none := by
    rw [msgRun_append]
    rcases h : msgRun E (comparisons c.tree) with ⟨x, _ | e⟩
    · exact m2
    · rw [h] at m1; cases m1
  obtain ⟨ma, xa, ha, ra⟩ := text_of_root (paren_and E hc hc') (b := .and ms.root mt.root)
    (by simp only [Cst.tree, build, b1, b2]) ⟨o1, o2⟩ hmm
  obtain ⟨mo, xo, ho, ro⟩ := text_of_root (paren_or E hc hc') (b := .or ms.root mt.root)
    (by simp only [Cst.tree, build, b1, b2]) ⟨o1, o2⟩ hmm
  obtain ⟨mn, xn, hn, rn⟩ := text_of_root (paren_not E hc) (b := .not ms.root)
    (by simp only [Cst.tree, build, b1]) o1 m1
  refine ⟨ma, mo, mn, xa, xo, xn, ha, ho, hn, ?_⟩
  intro d a b h1 h2
  have res : ∀ (m : Matcher) (r : Bool), (m.match E (.valid d)).2 = .result r ↔
      (m.root.result E d []).2 = .ok r := by
    intro m r
    simp only [Matcher.match]
    rcases m.root.result E d [] with ⟨ts, _ | x⟩ <;> simp
  rw [res] at h1 h2 ⊢
  rw [res, res]
  have g1 : ∀ p, (ms.root.result E d p).2 = .ok a := fun p => by rw [result_outcome E _ d p []]; exact h1
  have g2 : ∀ p, (mt.root.result E d p).2 = .ok b := fun p => by rw [result_outcome E _ d p []]; exact h2
  rw [ra, ro, rn]
  simp only [BoolNode.result]
  have e1 := g1 ([] ++ [false])
  have e2 := g2 ([] ++ [true])
  rcases x1 : ms.root.result E d ([] ++ [false]) with ⟨t1, y1⟩
  rcases x2 : mt.root.result E d ([] ++ [true]) with ⟨t2, y2⟩
  rw [x1] at e1; rw [x2] at e2
  dsimp only at e1 e2
  subst e1; subst e2
  refine ⟨?_, ?_, rfl⟩
  · cases a <;> cases b <;> rfl
  · cases a <;> cases b <;> rfl

-- two texts that get matchers and their compound
example : paren " x:>2 OR y:1".toList ++ " AND ".toList ++ paren "y:7".toList = "( x:>2 OR y:1) AND (y:7)".toList ∧
    answerOf testEnv " x:>2 OR y:1".toList exampleDoc = some true ∧ answerOf testEnv "y:7".toList exampleDoc = some true ∧
    answerOf testEnv "( x:>2 OR y:1) AND (y:7)".toList exampleDoc = some true := by
  decide +kernel

end Aql
