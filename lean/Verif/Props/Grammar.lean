import Verif.Proofs.Furthest
import Verif.Model.Api
import Verif.Proofs.Cost
import Verif.Proofs.CostBound
import Verif.Proofs.Layout
import Verif.Props.Matching
/-!
Properties C01 - C03, C05 - C11: the parser. `Spec.Query E s n` states that the text `s` is a query
and denotes the tree `n` (`Spec/Grammar`); `utf8 s` is the text as bytes. The literals (C04) are in
`Props/Literals`.
-/

namespace Aql

open Spec

variable (E : Env)

/-- A query with every kind of clause. -/
def sampleText : Str := " NOT (a.*.b:1 OR x : >= 2.5)\n\tAND !\"k\":(\"u\" , \"v\") ".toList

/-- Its tree. -/
def sampleTree : Node :=
  .and (.not (.or (.expr .EQ ["a".toList, "b".toList] [.int 1 "1".toList ⟨1, 13, 12, 1⟩] ⟨1, 7, 6, 7⟩)
      (.expr .GTE ["x".toList] [.float (.fin (5 / 2)) false ⟨1, 25, 24, 3⟩] ⟨1, 18, 17, 10⟩)))
    (.not (.expr .EQ ["k".toList] [.str "u".toList ⟨2, 12, 40, 3⟩, .str "v".toList ⟨2, 18, 46, 3⟩] ⟨2, 7, 35, 15⟩))

theorem sample_parses : grammarOut testEnv (decode (utf8 sampleText)) = some (.ok sampleTree) := by
  decide +kernel

/-! ### C03 -/

/-- **C03.** Every accepted text is a query of the stated language, and the tree returned is the one
it denotes. -/
theorem C03_accepted_is_sentence (query : List UInt8) (n : Node)
    (h : grammarOut E (decode query) = some (.ok n)) : ∃ s, query = utf8 s ∧ Query E s n := by
  obtain ⟨s, hs, hq⟩ := grammarOut_iff.1 h
  exact ⟨s, decode_ok hs, hq⟩

/-- The sample is a query, so the language is not empty. -/
theorem sample_query : Query testEnv sampleText sampleTree := by
  obtain ⟨s, hs, hq⟩ := C03_accepted_is_sentence testEnv _ _ sample_parses
  have := decode_utf8 sampleText
  rw [hs, decode_utf8] at this
  rwa [map_ok_inj this] at hq

/-! ### C02 -/

/-- **C02.** Every query of the stated language is accepted with the tree it denotes. -/
theorem C02_sentence_is_accepted (s : Str) (n : Node) (h : Query E s n) :
    grammarOut E (decode (utf8 s)) = some (.ok n) :=
  grammarOut_iff.2 ⟨s, decode_utf8 s, h⟩

/-- **C02.** The language is unambiguous: a text denotes at most one tree. -/
theorem C02_unambiguous (s : Str) (n m : Node) (h : Query E s n) (h' : Query E s m) : n = m := by
  have a := C02_sentence_is_accepted E s n h
  rw [C02_sentence_is_accepted E s m h'] at a
  cases a; rfl

/-- **C02.** The tree is a function of the tokens, given by `Cst.tree`: NOT binds tighter than AND,
AND tighter than OR (the levels of `Laid`), AND and OR associate to the right, parentheses override,
and white space does not matter. -/
theorem C02_tree_of_tokens (c : Cst) (s : Str) (h : LaidOut E c s) :
    ∃ n, grammarOut E (decode (utf8 s)) = some (.ok n) ∧ bare n = c.tree := by
  obtain ⟨n, hn, hb⟩ := laidOut_query h
  exact ⟨n, C02_sentence_is_accepted E s n hn, hb⟩

/-- **C02.** Two layouts of the same tokens are parsed to the same tree up to positions. -/
theorem C02_white_space_does_not_matter (c : Cst) (s t : Str) (hs : LaidOut E c s) (ht : LaidOut E c t) :
    ∃ n m, grammarOut E (decode (utf8 s)) = some (.ok n) ∧ grammarOut E (decode (utf8 t)) = some (.ok m) ∧
      bare n = bare m := by
  obtain ⟨n, hn, hb⟩ := C02_tree_of_tokens E c s hs
  obtain ⟨m, hm, hb'⟩ := C02_tree_of_tokens E c t ht
  exact ⟨n, m, hn, hm, hb.trans hb'.symm⟩

/-- **C03.** Every accepted text is a layout of tokens whose tree is the one returned. -/
theorem C03_accepted_is_layout (query : List UInt8) (n : Node)
    (h : grammarOut E (decode query) = some (.ok n)) :
    ∃ s c, query = utf8 s ∧ LaidOut E c s ∧ bare n = c.tree := by
  obtain ⟨s, hs, hq⟩ := C03_accepted_is_sentence E query n h
  obtain ⟨c, hc, hb⟩ := query_laidOut hq
  exact ⟨s, c, hs, hc, hb⟩

/-- A comparison `x:1` as tokens. -/
def tok (x : Char) : Cst := .compare [x] [[x]] [] .EQ [("1".toList, .int 1 "1".toList (posAt [] "1".toList))]

theorem tok_laid (x : Char) (hx : FieldChar E x) (w w' : Str) (hw : Ws w) (hw' : Ws w') :
    Laid E .cmp (tok x) ([x] ++ (w ++ ':' :: (w' ++ ([] ++ ([] ++ "1".toList))))) := by
  refine .compare (.one (.bare (by simp) (by simpa using hx))) .eq (.one ?_) hw hw' ws_nil
  refine .int (m := []) (a := ['1']) (.inl rfl) (by simp) ?_ rfl ?_ (by norm_num) (by norm_num)
  · intro c hc; simp at hc; subst hc; decide
  · refine ⟨[], false, ['1'], .none, by simp, ?_, rfl, rfl⟩
    intro c hc; simp at hc; subst hc; decide

/-- Precedence and associativity on texts: `a:1 OR b:1 AND c:1 AND d:1` is `a OR (b AND (c AND d))`. -/
example : ∃ n, grammarOut testEnv (decode (utf8 "a:1 OR b:1 AND c:1\n AND  d : 1".toList)) = some (.ok n) ∧
    bare n = .or (tok 'a').tree (.and (tok 'b').tree (.and (tok 'c').tree (tok 'd').tree)) := by
  have f : ∀ x ∈ ['a', 'b', 'c', 'd'], FieldChar testEnv x := by unfold FieldChar; decide
  refine C02_tree_of_tokens testEnv (.or (tok 'a') (.and (tok 'b') (.and (tok 'c') (tok 'd')))) _
    ⟨[], "a:1 OR b:1 AND c:1\n AND  d : 1".toList, [], ws_nil, ws_nil, ?_, ?_⟩
  · have sp : Space [' '] := by decide
    exact .or (w1 := [' ']) (w2 := [' ']) (.notAnd (.cmpNot (tok_laid _ _ (f _ (by simp)) [] [] ws_nil ws_nil))) (.andOr
      (.and (w1 := [' ']) (w2 := [' ']) (.cmpNot (tok_laid _ _ (f _ (by simp)) [] [] ws_nil ws_nil))
      (.and (w1 := ['\n', ' ']) (w2 := [' ', ' ']) (.cmpNot (tok_laid _ _ (f _ (by simp)) [] [] ws_nil ws_nil))
        (.notAnd (.cmpNot (tok_laid _ _ (f _ (by simp)) [' '] [' '] (by decide) (by decide)))) (by decide) (by decide)) sp sp)) sp sp
  · decide

/-! ### C01 -/

/-- **C01.** The parser returns: the recursion is never deeper than 64 times the number of characters
(plus 64), and its result is a tree or an error. -/
theorem C01_parser_terminates (query : List UInt8) :
    depthBound (decode query).length ≤ 64 * (query.length + 1) ∧ runStart E (decode query) ≠ .oof ∧
    ((∃ n, grammarOut E (decode query) = some (.ok n)) ∨ ∃ e, grammarOut E (decode query) = some (.error e)) := by
  refine ⟨?_, ?_, ?_⟩
  · have : (decode query).length ≤ query.length := by
      have h := decode_width query
      have : ∀ l : List Sym, l.length ≤ (l.map Sym.width).sum := by
        intro l
        induction l with
        | nil => simp
        | cons s l ih =>
          have : 1 ≤ s.width := by
            cases s with
            | ok c => exact Char.utf8Size_pos c
            | bad b => exact Nat.le_refl 1
          simp only [List.length_cons, List.map_cons, List.sum_cons]
          omega
      have := this (decode query)
      omega
    unfold depthBound
    omega
  · obtain ⟨l, r, -, h, -⟩ := parse_big (E := E) (decode query)
    rw [h]; intro h; cases h
  · obtain ⟨l, r, -, -, h⟩ := parse_big (E := E) (decode query)
    unfold grammarOut
    rw [h]
    rcases h2 : finish (encErr (.init (decode query)) ++ l) r with v | ⟨p, e⟩
    · rw [h2] at h
      obtain ⟨n, rfl⟩ := parse_node h
      exact .inl ⟨n, rfl⟩
    · exact .inr ⟨_, rfl⟩

/-- **C01.** The value of a successful parse is always a tree: "nil output" and "unknown type" are
never reported. -/
theorem C01_value_is_tree (input : List Sym) (v : PV) (h : parse E input = some (.value v)) :
    ∃ n, v = .node n := parse_node h

/-- **C01.** Trees returned by the grammar are well-formed: no sub-documents, network literals in
range. -/
theorem C01_accepted_from_grammar (query : List UInt8) (n : Node)
    (h : grammarOut E (decode query) = some (.ok n)) : FromGrammar n := by
  obtain ⟨s, -, w1, q, w2, -, -, ht, -⟩ := C03_accepted_is_sentence E query n h
  exact ⟨text_noSubdoc ht, text_litOk ht⟩

/-- **C01.** ParseQuery without visitors returns, on any bytes, the tree or an error (exactly one), and
does not panic. -/
theorem C01_parse_returns {σ : Type} (s : VState σ) (query : List UInt8) :
    ∃ r : Except PErr Node, parseQuery E [] s query = some (.ok (s, r)) := by
  unfold parseQuery
  rcases (C01_parser_terminates E query).2.2 with ⟨n, h⟩ | ⟨e, h⟩
  · rw [h]
    by_cases hok : AllOk E n
    · exact ⟨.ok n, by rw [Option.map_some, finishParse_accepted E [] s n hok]; rfl⟩
    · obtain ⟨e, he, -⟩ := finishParse_rejected E [] s n hok
      exact ⟨.error e, by rw [Option.map_some, he]⟩
  · rw [h]
    exact ⟨.error e, rfl⟩

/-- **C18.** NewMatcher on any bytes returns a matcher or an error, without a panic. -/
theorem C18_newMatcher_on_bytes (query : List UInt8) : ∃ r, newMatcher E query = some (.ok r) := by
  unfold newMatcher
  rcases (C01_parser_terminates E query).2.2 with ⟨n, h⟩ | ⟨e, h⟩
  · rw [h]
    obtain ⟨r, hr⟩ := C18_newMatcher_never_panics E ((decode query).map Sym.rune) (.ok n)
      (by rintro root ⟨⟩; exact C01_accepted_from_grammar E query n h)
    exact ⟨r, by rw [Option.map_some, hr]⟩
  · rw [h]
    obtain ⟨r, hr⟩ := C18_newMatcher_never_panics E ((decode query).map Sym.rune) (.error e)
      (by rintro root ⟨⟩)
    exact ⟨r, by rw [Option.map_some, hr]⟩

/-! ### C05 -/

/-- **C05.** Every comparison of an accepted query is a piece `t` of the text, after some `p`: the
recorded position is that of `t`, `t` alone denotes that node there, and every value is a piece `u`
of it with the position of `u`, and `u` alone denotes the value. -/
theorem C05_positions_exact (query : List UInt8) (n : Node)
    (h : grammarOut E (decode query) = some (.ok n)) : ∃ s, query = utf8 s ∧
      ∀ e ∈ comparisons n, ∃ op f vs p t post, e = .expr op f vs (posAt p t) ∧ s = p ++ (t ++ post) ∧
        Text E .cmp p t e ∧
        ∀ v ∈ vs, ∃ q u post', v.pos = posAt q u ∧ p ++ t = q ++ (u ++ post') ∧ p.length < q.length ∧
          Lit E q u v := by
  obtain ⟨s, hs, w1, q, w2, -, -, ht, hq⟩ := C03_accepted_is_sentence E query n h
  refine ⟨s, hs, fun e he => ?_⟩
  obtain ⟨p, t, post, e1, h1, op, f, vs, e2, h2⟩ := text_comparisons ht e he
  refine ⟨op, f, vs, p, t, post ++ w2, e2, ?_, h1, fun v hv => ?_⟩
  · rw [hq, ← List.append_assoc, e1]; simp
  · obtain ⟨q', u, post', e3, hp, h3⟩ := h2 v hv
    exact ⟨q', u, post', lit_pos h3, e3, hp, h3⟩

-- The positions in `sampleTree` are such: line 2, column 12, byte 40 for `"u"`.
example : (posAt (" NOT (a.*.b:1 OR x : >= 2.5)\n\tAND !\"k\":(".toList) "\"u\"".toList) = ⟨2, 12, 40, 3⟩ := by
  decide

/-! ### C07 -/

/-- **C07.** Only valid UTF-8 is accepted. -/
theorem C07_accepted_is_utf8 (query : List UInt8) (n : Node)
    (h : grammarOut E (decode query) = some (.ok n)) : ∃ s : Str, query = utf8 s := by
  obtain ⟨s, hs, -⟩ := C03_accepted_is_sentence E query n h
  exact ⟨s, hs⟩

/-- **C07.** A text with a byte that does not decode is rejected. -/
theorem C07_undecodable_rejected (query : List UInt8) (b : UInt8) (h : Sym.bad b ∈ decode query) :
    ∃ e, grammarOut E (decode query) = some (.error e) := by
  rcases (C01_parser_terminates E query).2.2 with ⟨n, hn⟩ | he
  · obtain ⟨s, rfl⟩ := C07_accepted_is_utf8 E query n hn
    rw [decode_utf8] at h
    obtain ⟨c, -, hc⟩ := List.mem_map.1 h
    cases hc
  · exact he

-- a lone continuation byte inside a string, and a truncated sequence at the end
example : Sym.bad 0x80 ∈ decode [0x61, 0x3a, 0x22, 0x80, 0x22] ∧ Sym.bad 0xe2 ∈ decode [0x61, 0xe2, 0x82] := by
  decide +kernel

/-! ### C06 -/

/-- **C06 (exact).** The position of a grammar error is a position of the text: its offset counts the
bytes of some prefix. When a newline follows the prefix, the line reported is the next one and the
column 0; otherwise line and column are those of the prefix. -/
theorem C06_error_position_exact (query : List UInt8) (e : PErr)
    (h : grammarOut E (decode query) = some (.error e)) :
    ∃ pre post, decode query = pre ++ post ∧ e.pos.offset = ((pre.map Sym.width).sum : Nat) ∧
      ((∃ u, post = .ok '\n' :: u) → e.pos.line = lineOf (runes pre) + 1 ∧ e.pos.col = 0) ∧
      ((∀ u, post ≠ .ok '\n' :: u) →
        e.pos.line = lineOf (runes pre) ∧ e.pos.col = colOf (runes pre)) := by
  obtain ⟨l, r, hb, -, hp⟩ := parse_big (E := E) (decode query)
  have loc : ∀ {p : Loc}, LocFrom (.init (decode query)) p → ∀ {k : RecErr}, e = getParseError E p k →
      ∃ pre post, decode query = pre ++ post ∧ e.pos.offset = ((pre.map Sym.width).sum : Nat) ∧
      ((∃ u, post = .ok '\n' :: u) → e.pos.line = lineOf (runes pre) + 1 ∧ e.pos.col = 0) ∧
      ((∀ u, post ≠ .ok '\n' :: u) →
        e.pos.line = lineOf (runes pre) ∧ e.pos.col = colOf (runes pre)) := by
    rintro p hf k rfl
    obtain ⟨pre, post, h1, h2, h3, h4⟩ := locFrom_init hf
    refine ⟨pre, post, h1, by simp [getParseError, h2], ?_, ?_⟩
    · intro hn
      obtain ⟨h5, h6⟩ := h3 (atNewline_iff.2 hn)
      exact ⟨by simp [getParseError, h5], by simp [getParseError, h6]⟩
    · intro hn
      obtain ⟨h5, h6⟩ := h4 (fun hh => by obtain ⟨u, hu⟩ := atNewline_iff.1 hh; exact hn u hu)
      exact ⟨by simp [getParseError, h5], by simp [getParseError, h6]⟩
  have hfrom : ∀ ev ∈ encErr (.init (decode query)) ++ l, ev.From (.init (decode query)) :=
    from_append (fun ev h => encErr_from h) hb.inv.1
  unfold grammarOut at h
  rw [hp] at h
  rcases h2 : finish (encErr (.init (decode query)) ++ l) r with v | ⟨p, k⟩
  · rw [h2] at hp
    obtain ⟨n, rfl⟩ := parse_node hp
    rw [h2] at h
    simp at h
  · rw [h2] at h
    simp only [Option.map_some, Option.some.injEq, Except.error.injEq] at h
    unfold finish at h2
    split at h2
    · rename_i l' e' tl hl
      cases h2
      have : (p, k) ∈ errorsOf (encErr (.init (decode query)) ++ l) := by rw [hl]; simp
      exact loc (hfrom _ (mem_errorsOf.1 this)) h.symm
    · cases h2
    · cases h2
      rcases furthest_from hfrom with hf | hf
      · refine ⟨[], decode query, rfl, ?_, ?_, ?_⟩
        · rw [← h, hf]; rfl
        · rintro ⟨u, hu⟩
          rw [hu] at hb
          have := furthest_newline hb (encErr (.init (decode query)) ++ l)
            (fun ev he => List.mem_append_right _ he)
          rw [hf] at this
          cases this
        · intro _
          rw [← h, hf]; exact ⟨rfl, rfl⟩
      · exact loc hf h.symm
    · cases h2
      obtain ⟨t, ht⟩ := hb.inv.2
      exact loc ⟨t, _, ht, rfl⟩ h.symm

/-- **C06 (partial).** The offset of a grammar error is inside the text, and line and column are those
of the offset unless a newline is there. Missing from the full claim: exact line and column at newlines
(refuted below). -/
theorem C06_error_position_partial (query : List UInt8) (e : PErr)
    (h : grammarOut E (decode query) = some (.error e)) :
    0 ≤ e.pos.offset ∧ e.pos.offset ≤ query.length ∧
    ∃ pre post, decode query = pre ++ post ∧ e.pos.offset = ((pre.map Sym.width).sum : Nat) ∧
      ((∀ u, post ≠ .ok '\n' :: u) →
        e.pos.line = lineOf (runes pre) ∧ e.pos.col = colOf (runes pre)) := by
  obtain ⟨pre, post, hs, ho, -, hc⟩ := C06_error_position_exact _ query e h
  refine ⟨?_, ?_, pre, post, hs, ho, hc⟩
  · rw [ho]; exact Int.natCast_nonneg _
  · have := decode_width query
    rw [hs, List.map_append, List.sum_append] at this
    rw [ho]; omega

/-- Position of the error, if the text is rejected. -/
def errorPos (E : Env) (s : Str) : Option Pos :=
  match grammarOut E (decode (utf8 s)) with
  | some (.error e) => some e.pos
  | _ => none

-- an error that is not at the beginning: position of the unknown value
example : errorPos testEnv "a:1 AND\n b:zz".toList = some ⟨2, 4, 11, 1⟩ := by decide +kernel

/-- **C06 (refuted).** At a newline the reported line and column are not those of the offset: the
field name expected after the dot is reported on line 2, column 0; the offset 2 is on line 1. -/
theorem C06_line_refuted : ∃ s p, errorPos testEnv s = some p ∧
    ∃ pre post, s = pre ++ post ∧ p.offset = bytesOf pre ∧ p.line ≠ lineOf pre ∧ p.col ≠ colOf pre := by
  refine ⟨"a.\nb:1".toList, ⟨2, 0, 2, 1⟩, by decide +kernel, "a.".toList, "\nb:1".toList, ?_, ?_, ?_, ?_⟩ <;> decide

/-! ### C08 -/

/-- Expressions that the parser evaluates (`ExprCnt`). -/
def parseCost (s : Str) : Nat :=
  match runStart E (s.map .ok) with
  | .oof => 0
  | .done log _ => ticks log

/-- **C08.** A comparison in `n` pairs of parentheses is accepted, after more than `4 ^ n` evaluations:
each pair multiplies the work by four. -/
theorem C08_nested_parentheses_cost (t : Str) (h : ∀ pre, ∃ n, Text E .cmp pre t n) (n : Nat) :
    (∃ r, Query E (nest n t) r) ∧ 4 ^ (n + 1) ≤ parseCost E (nest n t) := by
  constructor
  · obtain ⟨m, hm⟩ := nest_text h n []
    exact ⟨m, [], nest n t, [], ws_nil, ws_nil, .orAnd (.andNot (.notCmp hm)), by simp⟩
  · unfold parseCost
    rcases hr : runStart E ((nest n t).map .ok) with _ | ⟨log, r⟩
    · obtain ⟨l, r, -, h, -⟩ := parse_big (E := E) ((nest n t).map .ok)
      rw [h] at hr; cases hr
    · exact nest_parse h n hr

theorem exists_text (pre : Str) : ∃ n, Text E .cmp pre "a:exists".toList n := by
  refine ⟨_, .noArgs (p := ['a']) (w1 := []) (w2 := []) (.one (.bare (by simp) ?_)) ws_nil ws_nil .exists_ rfl⟩
  intro c hc
  simp at hc
  subst hc
  unfold FieldChar
  rw [goLower_ascii (by decide)]
  decide

example : nest 3 "a:exists".toList = "(((a:exists)))".toList ∧
    256 ≤ parseCost testEnv (nest 3 "a:exists".toList) :=
  ⟨by decide, (C08_nested_parentheses_cost testEnv _ (exists_text testEnv) 3).2⟩

/-- **C08 (refuted).** No polynomial in the length of the query bounds the number of evaluations. -/
theorem C08_polynomial_refuted : ¬ ∃ c k : Nat, ∀ s : Str, parseCost E s ≤ c * (s.length + 1) ^ k := by
  rintro ⟨c, k, h⟩
  -- n = 2 ^ (2 j) with j = 4 k + c
  let j := 4 * k + c
  have h2j : j + 1 ≤ 2 ^ j := Nat.lt_two_pow_self
  have hn := (C08_nested_parentheses_cost E _ (exists_text E) (2 ^ (2 * j))).2
  have hl : (nest (2 ^ (2 * j)) "a:exists".toList).length + 1 ≤ 2 ^ (2 * j + 4) := by
    rw [nest_length, pow_add]
    have : ("a:exists".toList).length = 8 := by decide
    have h1 : 1 ≤ 2 ^ (2 * j) := Nat.one_le_two_pow
    omega
  have hc : c < 2 ^ c := Nat.lt_two_pow_self
  have hup : c * ((nest (2 ^ (2 * j)) "a:exists".toList).length + 1) ^ k < 4 ^ (2 ^ (2 * j) + 1) := by
    calc c * ((nest (2 ^ (2 * j)) "a:exists".toList).length + 1) ^ k
        ≤ c * (2 ^ (2 * j + 4)) ^ k := Nat.mul_le_mul_left _ (Nat.pow_le_pow_left hl k)
      _ ≤ 2 ^ c * (2 ^ (2 * j + 4)) ^ k := Nat.mul_le_mul_right _ hc.le
      _ = 2 ^ (c + (2 * j + 4) * k) := by rw [← pow_mul, ← pow_add]
      _ < 2 ^ (2 * (2 ^ (2 * j) + 1)) := by
          apply Nat.pow_lt_pow_right (by norm_num)
          have e : 2 ^ (2 * j) = 2 ^ j * 2 ^ j := by rw [two_mul, pow_add]
          have h3 : (j + 1) * (j + 1) ≤ 2 ^ (2 * j) := by rw [e]; exact Nat.mul_le_mul h2j h2j
          have hk : 4 * k ≤ j := by omega
          have hcj : c ≤ j := by omega
          nlinarith
      _ = 4 ^ (2 ^ (2 * j) + 1) := by rw [pow_mul]; norm_num
  exact absurd (h (nest (2 ^ (2 * j)) "a:exists".toList)) (by omega)

/-- **C08 (partial).** What holds instead of a polynomial: at most cubic in the length of the text, times
four for every opening parenthesis. The factor four cannot be improved (`C08_rate_exact`). -/
theorem C08_cost_bound_partial (s : Str) :
    parseCost E s ≤ 160000 * (s.length + 1) ^ 3 * 4 ^ s.count '(' := by
  obtain ⟨l, r, hb, hr, -⟩ := parse_big (E := E) (s.map .ok)
  unfold parseCost
  rw [hr]
  dsimp only
  rw [ticks_append, ticks_encErr, Nat.zero_add]
  have h := start_cost (E := E) (c := .init (s.map .ok)) ⟨l, r, hb, rfl, rfl⟩
  have hl : (Cursor.init (s.map .ok)).rest = s.map .ok := rfl
  have hp : parens (Cursor.init (s.map .ok)) = s.count '(' := by
    unfold parens
    rw [hl, List.countP_map]
    unfold List.count
    congr 1
  rw [hl, List.length_map, hp] at h
  exact h

/-- **C08.** The factor per parenthesis is exactly four: a bound of the form polynomial in the length times
`b` to the number of opening parentheses holds for all texts if and only if `b` is at least four. -/
theorem C08_rate_exact (b : Nat) :
    (∃ c k : Nat, ∀ s : Str, parseCost E s ≤ c * (s.length + 1) ^ k * b ^ s.count '(') ↔ 4 ≤ b := by
  constructor
  · rintro ⟨c, k, h⟩
    refine four_le_rate (c := c) (k := k) fun n => ?_
    have hn := (C08_nested_parentheses_cost E _ (exists_text E) n).2
    have := h (nest n "a:exists".toList)
    rw [nest_parens, show ("a:exists".toList).count '(' = 0 by decide, Nat.add_zero, nest_length,
      show ("a:exists".toList).length + 2 * n + 1 = 2 * n + 9 by
        rw [show ("a:exists".toList).length = 8 by decide]; omega] at this
    exact hn.trans this
  · intro hb
    refine ⟨160000, 3, fun s => (C08_cost_bound_partial E s).trans ?_⟩
    exact Nat.mul_le_mul_left _ (Nat.pow_le_pow_left hb _)

example : ∃ s : Str, 160000 * (s.length + 1) ^ 3 * 3 ^ s.count '(' < parseCost testEnv s := by
  by_contra h
  push Not at h
  exact absurd ((C08_rate_exact testEnv 3).1 ⟨_, _, h⟩) (by decide)

/-- **C08 (partial).** Without parentheses the cost is cubic. -/
theorem C08_no_parentheses_partial (s : Str) (h : '(' ∉ s) :
    parseCost E s ≤ 160000 * (s.length + 1) ^ 3 := by
  have := C08_cost_bound_partial E s
  rwa [List.count_eq_zero_of_not_mem h, Nat.pow_zero, Nat.mul_one] at this

example : '(' ∉ "NOT a:1 AND b.*.c:>2 OR ! d:\"x\"".toList ∧
    0 < parseCost testEnv "NOT a:1 AND b.*.c:>2 OR ! d:\"x\"".toList := by decide +kernel
example : "(a:1 OR (b:2)) AND c:exists".toList.count '(' = 2 := by decide

/-! ### C09 -/

/-- **C09.** The first error recorded anywhere during the parse, also inside an alternative that is
given up later, is the one reported. -/
theorem C09_first_recorded_error_reported (input : List Sym) (log l1 l2 : List Ev) (r : Res) (p : Loc) (k : RecErr)
    (h : runStart E input = .done log r) (hl : log = l1 ++ .err p k :: l2)
    (h1 : ∀ p' k', Ev.err p' k' ∉ l1) : grammarOut E input = some (.error (getParseError E p k)) := by
  have e1 : errorsOf l1 = [] := by
    rw [List.eq_nil_iff_forall_not_mem]
    rintro ⟨p', k'⟩ hm
    exact h1 p' k' (mem_errorsOf.1 hm)
  have e2 : errorsOf log = (p, k) :: errorsOf l2 := by
    rw [hl, errorsOf_append, e1]; rfl
  unfold grammarOut parse
  rw [h]
  simp only [finish, e2, Option.map_some]

/-- **C09.** If any error is recorded the text is rejected. -/
theorem C09_recorded_error_rejects (input : List Sym) (log : List Ev) (r : Res) (p : Loc) (k : RecErr)
    (h : runStart E input = .done log r) (hm : Ev.err p k ∈ log) (n : Node) :
    grammarOut E input ≠ some (.ok n) := by
  have hm := mem_errorsOf.2 hm
  unfold grammarOut parse
  rw [h]
  rcases h2 : errorsOf log with _ | ⟨⟨p', k'⟩, t⟩
  · rw [h2] at hm; cases hm
  · simp [finish, h2]

-- the alternative `AndClause space OR …` is given up after recording the bad date; the date is reported
example : errorPos testEnv "(a:2021-02-30)".toList = some ⟨1, 4, 3, 10⟩ := by decide +kernel

/-! ### C10 -/

/-- **C10.** The field of a comparison consists of the segments of its path other than `*`: two paths
with the same remaining segments are parsed to the same field. -/
theorem C10_star_segments_transparent (p p' : Str) (xs xs' : List Str) (hp : Path E p xs) (hp' : Path E p' xs')
    (h : withoutStars xs = withoutStars xs') (t : Str) (v : Val) (ht : Lit E [] t v) :
    ∃ n n', grammarOut E (decode (utf8 (p ++ ':' :: t))) = some (.ok n) ∧
      grammarOut E (decode (utf8 (p' ++ ':' :: t))) = some (.ok n') ∧ bare n = bare n' ∧
      bare n = .expr .EQ (withoutStars xs) [unplaced v] noPosition := by
  have key : ∀ {p xs}, Path E p xs → ∃ n, grammarOut E (decode (utf8 (p ++ ':' :: t))) = some (.ok n) ∧
      bare n = .expr .EQ (withoutStars xs) [unplaced v] noPosition := by
    intro p xs hp
    refine C02_tree_of_tokens E (.compare p xs [] .EQ [(t, v)]) _ ⟨[], _, [], ws_nil, ws_nil,
      .andOr (.notAnd (.cmpNot (.compare (w1 := []) (w2 := []) (w3 := []) hp .eq (.one ht) ws_nil ws_nil ws_nil))), by simp⟩
  obtain ⟨n, hn, hb⟩ := key hp
  obtain ⟨n', hn', hb'⟩ := key hp'
  exact ⟨n, n', hn, hn', by rw [hb, hb', h], hb⟩

/-- Field of a query that is one comparison. -/
def fieldOf (E : Env) (s : Str) : Option (List Str) :=
  match grammarOut E (decode (utf8 s)) with
  | some (.ok (.expr _ f _ _)) => some f
  | _ => none

example : fieldOf testEnv "a.*.b:1".toList = some ["a".toList, "b".toList] ∧
    fieldOf testEnv "*.a.\"*\".*.b.*:1".toList = some ["a".toList, "b".toList] := by decide +kernel

/-! ### C11 -/

/-- **C11 (partial).** A regular expression literal whose body is not empty, neither begins nor ends
with a slash once every `\/` is replaced by `/`, is compiled from exactly that text. Missing from the
full claim: bodies that begin or end with an escaped slash (refuted below). -/
theorem C11_regex_body_partial (pre s u : Str) (hs : RegexBody s) (hu : Unescaped s u) (h1 : u.head? ≠ some '/')
    (h2 : u.getLast? ≠ some '/') (h3 : ∀ w, s ≠ w ++ ['\\']) (hc : reCompiles E u = true) :
    Lit E pre ('/' :: (s ++ ['/'])) (.regex ('/' :: (u ++ ['/'])) u (posAt pre ('/' :: (s ++ ['/'])))) := by
  refine .regex hs rfl (.other (fun h => absurd h (by decide)) ?_) ⟨1, 1, by simp, h1, h2⟩ hc
  clear hs h1 h2 hc
  induction hu with
  | nil => exact .other (by simp) .nil
  | @slash s u _ ih =>
    exact .slash (ih fun w hw => h3 ('\\' :: '/' :: w) (by simp [hw]))
  | @other c s u hne _ ih =>
    refine .other ?_ (ih fun w hw => h3 (c :: w) (by simp [hw]))
    intro hc' t ht
    cases s with
    | nil => exact h3 [] (by simp [hc'])
    | cons d s =>
      have ht : d :: (s ++ ['/']) = '/' :: t := ht
      cases ht
      exact hne hc' s rfl

/-- The source of the regular expression of `a:` followed by a literal. -/
def regexSource (E : Env) (s : Str) : Option Str :=
  match grammarOut E (decode (utf8 s)) with
  | some (.ok (.expr _ _ [.regex _ src _] _)) => some src
  | _ => none

example : regexSource testEnv "a:/x\\/y+/".toList = some "x/y+".toList := by decide +kernel

/-- **C11 (refuted).** The leading slash of the body `\/etc` is lost. -/
theorem C11_leading_slash_refuted : Unescaped "\\/etc".toList "/etc".toList ∧
    regexSource testEnv "a:/\\/etc/".toList = some "etc".toList := by
  refine ⟨.slash ?_, by decide +kernel⟩
  exact .other (c := 'e') (fun h => absurd h (by decide)) (.other (c := 't') (fun h => absurd h (by decide))
    (.other (c := 'c') (fun h => absurd h (by decide)) .nil))

end Aql
