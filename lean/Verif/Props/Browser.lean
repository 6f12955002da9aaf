import Verif.Proofs.Wasm
import Verif.Spec.Utf16
import Verif.Props.EndToEnd
/-!
Properties C64 and C65: what a rejection says, and the spans that the browser front end highlights.
-/

namespace Aql

open Spec

variable (E : Env)

/-! ### C64 -/

/-- **C64.** The parser recovers from panics of its actions and turns them into errors; no query is
rejected with such an error. -/
theorem C64_no_recovered_panic (query : List UInt8) (at_ : Loc) (p : GoPanic) (k : Option Nat) :
    parse E (decode query) ≠ some (.error at_ ⟨.panic p, k⟩) := by
  obtain ⟨l, r, hb, -, hp⟩ := parse_big (E := E) (decode query)
  have hspan : ∀ ev ∈ encErr (.init (decode query)) ++ l, ev.Spans (.init (decode query)) :=
    spans_append (fun ev h => encErr_spans h) (hb.spans (reads_grammar _) rfl)
  rw [hp]
  intro h
  simp only [Option.some.injEq] at h
  unfold finish at h
  split at h
  · rename_i l' e' tl hl
    cases h
    have : (at_, ⟨.panic p, k⟩) ∈ errorsOf (encErr (.init (decode query)) ++ l) := by rw [hl]; simp
    obtain ⟨t, c', u, c'', -, -, -, -, -, hk⟩ := hspan _ (mem_errorsOf.1 this)
    exact hk.1 p rfl
  · cases h
  · cases h
  · rename_i q c hl
    have hl' : errorsOf l = [] := by
      unfold errorsOf at hl ⊢
      rw [List.filterMap_append] at hl
      exact (List.append_eq_nil_iff.1 hl).2
    exact hb.shapes hl' (wt_grammar _) rfl

/-- The three errors that may be reported at the end of the text. -/
def AtEnd (msg : Str) : Prop :=
  msg = "unterminated string, check for missing closing [\"] or unescaped [\\]".toList ∨
    msg = "unterminated regular expression, did you forget a closing '/'?".toList ∨
    "no match found".toList <+: msg

/-- **C64.** A grammar error marks text that is there: the offset is at some point of the text, the
length is at least one, and that many characters follow, except for the three errors that may point at
the end of the text, which have length one. -/
theorem C64_error_marks_text (query : List UInt8) (e : PErr)
    (h : grammarOut E (decode query) = some (.error e)) :
    ∃ pre tok post, decode query = pre ++ (tok ++ post) ∧ e.pos.offset = ((pre.map Sym.width).sum : Nat) ∧
      1 ≤ e.pos.len ∧ (e.pos.len = tok.length ∨ e.pos.len = 1 ∧ AtEnd e.msg) := by
  obtain ⟨l, r, hb, -, hp⟩ := parse_big (E := E) (decode query)
  have hspan : ∀ ev ∈ encErr (.init (decode query)) ++ l, ev.Spans (.init (decode query)) :=
    spans_append (fun ev h => encErr_spans h) (hb.spans (reads_grammar _) rfl)
  have hfrom : ∀ ev ∈ encErr (.init (decode query)) ++ l, ev.From (.init (decode query)) :=
    from_append (fun ev h => encErr_from h) hb.inv.1
  unfold grammarOut at h
  rcases h2 : finish (encErr (.init (decode query)) ++ l) r with v | ⟨p, k⟩
  · rw [h2] at hp
    obtain ⟨n, rfl⟩ := parse_node hp
    rw [hp] at h
    simp at h
  · rw [hp, h2] at h
    simp only [Option.map_some, Option.some.injEq, Except.error.injEq] at h
    have hnp := C64_no_recovered_panic E query p
    rw [hp, h2] at hnp
    unfold finish at h2
    split at h2
    · rename_i l' e' tl hl
      cases h2
      have : (p, k) ∈ errorsOf (encErr (.init (decode query)) ++ l) := by rw [hl]; simp
      obtain ⟨t, c', u, c'', h3, rfl, h4, h5, h6, -⟩ := hspan _ (mem_errorsOf.1 this)
      obtain ⟨h7, -⟩ := LocIs.adv h3 (locIs_init _)
      have hs : decode query = t ++ (u ++ c''.rest) := by
        have := h3.rest
        rw [h4.rest] at this
        exact this
      subst h
      rcases h6 with ⟨h6, h8⟩ | h6
      · refine ⟨t, [], u ++ c''.rest, by simpa using hs, by simpa [getParseError] using h7, ?_, .inr ⟨?_, ?_⟩⟩
        · simp [getParseError, h6]
        · simp [getParseError, h6]
        · rcases h8 with h8 | h8
          · exact .inl (by show k.kind.text E = _; rw [h8]; rfl)
          · exact .inr (.inl (by show k.kind.text E = _; rw [h8]; rfl))
      · rcases u with _ | ⟨x, u⟩
        · exact absurd rfl h6
        rcases hk : k.toklen with _ | n
        · refine ⟨t, [x], u ++ c''.rest, by simpa using hs, by simpa [getParseError] using h7, ?_, .inl ?_⟩ <;>
            simp [getParseError, hk]
        · have := h5 n hk
          refine ⟨t, x :: u, c''.rest, hs, by simpa [getParseError] using h7, ?_, .inl ?_⟩
          · simp [getParseError, hk, this]
          · simp [getParseError, hk, this]
    · cases h2
    · cases h2
      subst h
      have hend : AtEnd ((ErrKind.noMatch (expectedOf (furthest (encErr (.init (decode query)) ++ l)).2)).text E) :=
        .inr (.inr ⟨_, rfl⟩)
      rcases furthest_from hfrom with hf | hf
      · exact ⟨[], [], decode query, rfl, by simp [getParseError, hf], by simp [getParseError],
          .inr ⟨by simp [getParseError], hend⟩⟩
      · obtain ⟨pre, post, h3, h4, -⟩ := locFrom_init hf
        exact ⟨pre, [], post, h3, by simp [getParseError, h4], by simp [getParseError],
          .inr ⟨by simp [getParseError], hend⟩⟩
    · cases h2
      exact absurd rfl (hnp _ none)

/-- Offset and length of the grammar error, if any. -/
def errorSpan (E : Env) (query : List UInt8) : Option (Int × Int) :=
  match grammarOut E (decode query) with
  | some (.error e) => some (e.pos.offset, e.pos.len)
  | _ => none

-- an unknown word, a bad network, a byte that is no UTF-8; a string that does not end
example : errorSpan testEnv (utf8 "a:1 AND b:zz".toList) = some (10, 1) ∧
    errorSpan testEnv (utf8 "a:(1, 1.2.3.444/33)".toList) = some (6, 12) ∧
    errorSpan testEnv [0x61, 0x3a, 0x31, 0xff] = some (3, 1) ∧
    errorSpan testEnv (utf8 "a:\"xy".toList) = some (5, 1) := by decide +kernel

/-! ### C65 -/

/-- The page gets a tree without errors, or no tree and one error. -/
def TreeOrError : Option Node × List JsMsg → Prop
  | (some _, ms) => ∀ m ∈ ms, m.type ≠ .error
  | (none, ms) => ∃ m, ms = [m] ∧ m.type = .error

/-- The span is that of a comparison of the tree, or of one of its values; `u` is the text there. -/
def Marks (E : Env) (s : Str) (n : Node) (m : JsMsg) (u : Str) : Prop :=
  ∃ q rest op f vs p, s = q ++ (u ++ rest) ∧ u ≠ [] ∧ .expr op f vs p ∈ comparisons n ∧
    (Text E .cmp q u (.expr op f vs p) ∨ ∃ v ∈ vs, Lit E q u v) ∧
    m.start = bytesOf q ∧ m.stop = bytesOf q + u.length

theorem cmp_ne_nil {E : Env} {pre t : Str} {op : Op} {f : List Str} {vs : List Val} {p : Pos}
    (h : Text E .cmp pre t (.expr op f vs p)) : t ≠ [] := by
  cases h <;> simp_all

theorem bytesOf_ge (u : Str) : u.length ≤ bytesOf u := by
  induction u with
  | nil => simp [bytesOf]
  | cons c u ih =>
    have := Char.utf8Size_pos c
    simp only [bytesOf, List.map_cons, List.sum_cons, List.length_cons] at *
    omega

theorem utf8_length (s : Str) : (utf8 s).length = bytesOf s := by
  have := decode_width (utf8 s)
  rw [decode_utf8, width_sum] at this
  exact this.symm

theorem units_ascii {c : Char} (h : c.toNat < 128) : units c = [c.toNat] ∧ c.utf8Size = 1 := by
  constructor
  · unfold units; rw [if_pos (by omega)]
  · unfold Char.utf8Size
    rw [if_pos]
    exact Nat.le_of_lt_succ h

theorem ascii_text {s : Str} (h : AsciiText s) : utf16 s = s.map Char.toNat ∧ bytesOf s = s.length := by
  induction s with
  | nil => exact ⟨rfl, rfl⟩
  | cons c s ih =>
    obtain ⟨h1, h2⟩ := units_ascii (h c (by simp))
    obtain ⟨h3, h4⟩ := ih fun x hx => h x (by simp [hx])
    constructor
    · simp only [utf16, List.flatMap_cons, h1] at *
      rw [h3]; simp
    · simp only [bytesOf, List.map_cons, List.sum_cons, List.length_cons, h2] at *
      omega

/-- **C65.** For every input, the page gets a tree without errors, or no tree and exactly one error. -/
theorem C65_tree_or_error (query : List UInt8) : ∃ r, pWrap E query = some (.ok r) ∧ TreeOrError r := by
  have key : ∀ out, grammarOut E (decode query) = some out →
      ∃ r, pWrap E query = some (.ok r) ∧ TreeOrError r := by
    intro out h
    unfold pWrap
    rw [parseAQL_eq E query out h]
    simp only [Option.map_some]
    have herr : ∀ e, (errConvert e query.length).type = .error := by
      intro e; unfold errConvert; split <;> rfl
    rcases ha : aqlOut E out with e | ⟨root, ms⟩
    · exact ⟨_, rfl, _, rfl, herr e⟩
    · refine ⟨_, rfl, ?_⟩
      intro m hm
      obtain ⟨x, hx, rfl⟩ := List.mem_map.1 hm
      obtain ⟨rfl, -, h1⟩ := aqlOut_ok E ha
      have hx : x ∈ (runMsgs (warningFn E) (comparisons root)).1 := by rw [h1]; exact hx
      obtain ⟨c, hc, h2⟩ := runMsgs_mem hx
      obtain ⟨s, -, hpos⟩ := C05_positions_exact E query root h
      obtain ⟨op, f, vs, p, t, post, rfl, -⟩ := hpos c hc
      exact (warningFn_pos E h2).1
  rcases (C01_parser_terminates E query).2.2 with ⟨n, hn⟩ | ⟨e, he⟩
  · exact key _ hn
  · exact key _ he

/-- **C65.** Every message about an accepted query marks a comparison or a literal of its text. -/
theorem C65_messages_mark_pieces (query : List UInt8) (n : Node) (ms : List JsMsg)
    (h : pWrap E query = some (.ok (some n, ms))) :
    ∃ s, query = utf8 s ∧ Query E s n ∧ ∀ m ∈ ms, ∃ u, Marks E s n m u := by
  unfold pWrap at h
  rcases hg : grammarOut E (decode query) with _ | out
  · unfold parseAQL parseQuery at h
    rw [hg] at h; cases h
  rw [parseAQL_eq E query out hg] at h
  simp only [Option.map_some, Option.some.injEq] at h
  rcases ha : aqlOut E out with e | ⟨root, ms'⟩
  · rw [ha] at h; cases h
  · rw [ha] at h
    cases h
    obtain ⟨rfl, -, h1⟩ := aqlOut_ok E ha
    obtain ⟨s', hs', hq⟩ := C03_accepted_is_sentence E query n hg
    obtain ⟨s, hs, hpos⟩ := C05_positions_exact E query n hg
    have hss : s' = s := by
      have := decode_utf8 s'
      rw [← hs', hs, decode_utf8] at this
      exact (map_ok_inj this).symm
    subst hss
    refine ⟨s', hs, hq, ?_⟩
    intro m hm
    obtain ⟨x, hx, rfl⟩ := List.mem_map.1 hm
    have hx : x ∈ (runMsgs (warningFn E) (comparisons n)).1 := by rw [h1]; exact hx
    obtain ⟨c, hc, h2⟩ := runMsgs_mem hx
    obtain ⟨op, f, vs, p, t, post, rfl, h3, h4, h5⟩ := hpos c hc
    rcases (warningFn_pos E h2).2 with h6 | ⟨v, hv, h6⟩
    · exact ⟨t, p, post, op, f, vs, _, h3, cmp_ne_nil h4, hc, .inl h4, by simp [msgConvert, h6, posAt],
        by simp [msgConvert, h6, posAt]⟩
    · obtain ⟨q, u, post', h7, h8, -, h9⟩ := h5 v hv
      obtain ⟨a, b, hu, -⟩ := lit_cons h9
      refine ⟨u, q, post' ++ post, op, f, vs, _, ?_, by simp [hu], hc, .inr ⟨v, hv, h9⟩,
        by simp [msgConvert, h6, h7, posAt], by simp [msgConvert, h6, h7, posAt]⟩
      rw [h3, ← List.append_assoc, h8]; simp

/-- The library parses every pattern that it compiles (Go's regexp.Compile begins with that). -/
def PatternsParse (E : Env) : Prop := ∀ src, reCompiles E src = true → (E.reSyntax src).isSome = true

theorem warnings_ok {n : Node} {query : List UInt8} (hre : PatternsParse E)
    (h : grammarOut E (decode query) = some (.ok n)) : (runMsgs (warningFn E) (comparisons n)).2 = none := by
  apply runMsgs_none
  intro c hc
  obtain ⟨s, -, hpos⟩ := C05_positions_exact E query n h
  obtain ⟨op, f, vs, p, t, post, rfl, -, -, h5⟩ := hpos c hc
  apply warningFn_ok
  intro sv src q hv
  obtain ⟨q', u, post', -, -, -, h9⟩ := h5 _ hv
  cases h9 with
  | regex _ _ _ _ h => exact hre src h

/-- The validator's messages do not begin with `n`. -/
theorem validateExpr_msg {op : Op} {vs : List Val} {pos : Pos} {e : PErr}
    (h : validateExpr E op vs pos = .ok (some e)) : ∃ c u, e.msg = c :: u ∧ c ≠ 'n' := by
  have hop : ∀ op m, ∃ c u, opMsg op m = c :: u ∧ c ≠ 'n' := fun op m => ⟨'[', _, rfl, by decide⟩
  have hloop : ∀ (vs : List Val) (n : Nat) (seen : List Str) (i : Nat),
      checkRValsLoop E op n seen i vs = some e → ∃ c u, e.msg = c :: u ∧ c ≠ 'n' := by
    intro vs n
    induction vs with
    | nil => intro seen i h; cases h
    | cons v vs ih =>
      intro seen i h
      simp only [checkRValsLoop] at h
      split at h
      · cases h; exact ⟨'d', _, rfl, by decide⟩
      · split at h
        · cases h; exact ⟨'c', _, rfl, by decide⟩
        · exact ih _ _ h
  unfold validateExpr at h
  split at h
  · rename_i e1 h1
    cases h
    unfold checkValues at h1
    split at h1
    any_goals
      obtain ⟨v, -, rfl⟩ := Option.map_eq_some_iff.1 h1
      exact hop _ _
    cases h1
  · split at h
    · rename_i e2 h2
      cases h
      unfold checkArity at h2
      split at h2 <;> split at h2 <;> cases h2 <;> exact hop _ _
    · split at h
      · rename_i e3 h3
        cases h
        unfold checkRVals at h3
        split at h3
        · cases h3
        · exact hloop _ _ _ _ h3
      · unfold checkBetween at h
        split at h
        · cases h
        · split at h
          · split at h
            · split at h
              · simp only [Except.ok.injEq] at h
                split at h <;> cases h
                exact ⟨'[', _, rfl, by decide⟩
              · cases h; exact ⟨'s', _, rfl, by decide⟩
            · simp only [Except.ok.injEq] at h
              split at h <;> cases h
              exact ⟨'[', _, rfl, by decide⟩
          · cases h

/-- **C65.** The error for a query that is well-formed but breaks a typing rule marks a comparison or a
literal of its text. -/
theorem C65_typing_error_marks_piece (hre : PatternsParse E) (query : List UInt8) (n : Node) (ms : List JsMsg)
    (hn : grammarOut E (decode query) = some (.ok n)) (h : pWrap E query = some (.ok (none, ms))) :
    ∃ s m u, query = utf8 s ∧ ms = [m] ∧ Marks E s n m u := by
  unfold pWrap at h
  rw [parseAQL_eq E query _ hn] at h
  simp only [Option.map_some, Option.some.injEq] at h
  rcases ha : aqlOut E (.ok n) with e | ⟨root, ms'⟩
  · rw [ha] at h
    cases h
    rcases aqlOut_error E ha with h1 | ⟨n', h1, h2 | ⟨e', h2⟩⟩
    · cases h1
    · cases h1
      obtain ⟨before, c, after, h3, h4, h5⟩ := List.findSome?_eq_some_iff.1 h2
      have hv : opValidator E c = .ok (some e) := by rw [opValidator_verdict, h4]
      obtain ⟨s, hs, hpos⟩ := C05_positions_exact E query n hn
      have hc : c ∈ comparisons n := by rw [h3]; simp
      obtain ⟨op, f, vs, p, t, post, rfl, h6, h7, h8⟩ := hpos c hc
      obtain ⟨x, w, hx, hxn⟩ := validateExpr_msg E hv
      have hconv : errConvert e query.length = ⟨.error, e.msg, e.pos.offset, e.pos.offset + e.pos.len⟩ := by
        unfold errConvert
        rw [if_neg]
        rw [hx]
        intro hp
        simp only [String.reduceToList, List.isPrefixOf, Bool.and_eq_true, beq_iff_eq] at hp
        exact hxn hp.1.symm
      have hlit : ∀ v ∈ vs, e.pos = v.pos → ∃ u, Marks E s n (errConvert e query.length) u := by
        intro v hv hp
        obtain ⟨q, u, post', h9, h10, -, h11⟩ := h8 v hv
        obtain ⟨a, b, hu, -⟩ := lit_cons h11
        refine ⟨u, q, post' ++ post, op, f, vs, _, ?_, by simp [hu], hc, .inr ⟨v, hv, h11⟩,
          by simp [hconv, hp, h9, posAt], by simp [hconv, hp, h9, posAt]⟩
        rw [h6, ← List.append_assoc, h10]; simp
      have hb : Blames E op vs (posAt p t) e.pos := validateExpr_blames hv
      have hm : ∃ u, Marks E s n (errConvert e query.length) u := by
        generalize hep : e.pos = ep at hb
        cases hb with
        | @operand l v r _ _ h => exact hlit v (by rw [h]; simp) hep
        | arity => exact ⟨t, p, post, op, f, vs, _, h6, cmp_ne_nil h7, hc, .inl h7,
            by simp [hconv, hep, posAt], by simp [hconv, hep, posAt]⟩
        | @value l v r _ _ h => exact hlit v (by rw [h]; simp) hep
        | @order a b _ _ _ h => exact hlit b (by rw [h]; simp) hep
      obtain ⟨u, hu⟩ := hm
      exact ⟨s, _, u, hs, rfl, hu⟩
    · cases h1
      rw [warnings_ok E hre hn] at h2; cases h2
  · rw [ha] at h; cases h

/-- **C65.** What the page highlights for a mark in an ASCII text is exactly the marked piece. -/
theorem C65_ascii_highlight (s u : Str) (n : Node) (m : JsMsg) (h : Marks E s n m u) (ha : AsciiText s) :
    jsSlice (utf16 s) m.start m.stop = utf16 u := by
  obtain ⟨q, rest, op, f, vs, p, hs, -, -, -, h1, h2⟩ := h
  have hq : AsciiText q := fun c hc => ha c (by rw [hs]; simp [hc])
  have hu : AsciiText u := fun c hc => ha c (by rw [hs]; simp [hc])
  rw [jsSlice, h1, h2, (ascii_text ha).1, (ascii_text hu).1, (ascii_text hq).2, hs]
  simp only [List.map_append, Int.toNat_natCast]
  have : ((q.length : Int) + (u.length : Int)).toNat - q.length = u.length := by omega
  rw [this, List.drop_left' (by simp), List.take_left' (by simp)]

theorem marks_inside {s u : Str} {n : Node} {m : JsMsg} (h : Marks E s n m u) :
    0 ≤ m.start ∧ m.start < m.stop ∧ m.stop ≤ (utf8 s).length := by
  obtain ⟨q, rest, op, f, vs, p, hs, hne, -, -, h1, h2⟩ := h
  have : 0 < u.length := List.length_pos_iff.2 hne
  have := bytesOf_ge u
  rw [utf8_length, h1, h2, hs, bytesOf_append, bytesOf_append]
  omega

/-- The two errors about text that does not end. -/
def Unterminated (msg : Str) : Prop :=
  msg = "unterminated string, check for missing closing [\"] or unescaped [\\]".toList ∨
    msg = "unterminated regular expression, did you forget a closing '/'?".toList

/-- **C65 (partial).** The spans are not empty and lie inside the bytes of the input. Missing from the
full claim: the empty input, and strings or patterns that do not end (both refuted below). -/
theorem C65_spans_inside_partial (hre : PatternsParse E) (query : List UInt8) (hne : query ≠ [])
    (t : Option Node) (ms : List JsMsg) (h : pWrap E query = some (.ok (t, ms))) (m : JsMsg) (hm : m ∈ ms)
    (hu : ¬ Unterminated m.msg) : 0 ≤ m.start ∧ m.start < m.stop ∧ m.stop ≤ query.length := by
  rcases t with _ | n
  · rcases hg : grammarOut E (decode query) with _ | ⟨e | n⟩
    · unfold pWrap parseAQL parseQuery at h
      rw [hg] at h; cases h
    · unfold pWrap at h
      rw [parseAQL_eq E query _ hg] at h
      simp only [Option.map_some, Option.some.injEq, aqlOut] at h
      cases h
      rw [List.mem_singleton] at hm
      subst hm
      have hlen : 0 < query.length := List.length_pos_iff.2 hne
      obtain ⟨pre, tok, post, h1, h2, h3, h4⟩ := C64_error_marks_text E query e hg
      unfold errConvert at hu ⊢
      split
      · refine ⟨?_, ?_, ?_⟩ <;> simp only <;> omega
      · rename_i hp
        rw [if_neg hp] at hu
        have hw := decode_width query
        rw [h1] at hw
        simp only [List.map_append, List.sum_append] at hw
        have htok : tok.length ≤ (tok.map Sym.width).sum := by
          clear h1 hw h4
          induction tok with
          | nil => simp
          | cons x tok ih =>
            have hx : 0 < x.width := by
              cases x with
              | ok c => exact Char.utf8Size_pos c
              | bad b => simp [Sym.width]
            simp only [List.length_cons, List.map_cons, List.sum_cons]
            omega
        rcases h4 with h4 | ⟨-, h4⟩
        · refine ⟨?_, ?_, ?_⟩ <;> simp only <;> omega
        · rcases h4 with h4 | h4 | h4
          · exact absurd (.inl h4) hu
          · exact absurd (.inr h4) hu
          · exact absurd (List.isPrefixOf_iff_prefix.2 h4) hp
    · obtain ⟨s, m', u, hs, rfl, hmk⟩ := C65_typing_error_marks_piece E hre query n ms hg h
      rw [List.mem_singleton.1 hm, hs]
      exact marks_inside E hmk
  · obtain ⟨s, hs, -, hmk⟩ := C65_messages_mark_pieces E query n ms h
    obtain ⟨u, hmk⟩ := hmk m hm
    rw [hs]
    exact marks_inside E hmk

/-- The messages that the page gets. -/
def pageMsgs (E : Env) (query : List UInt8) : Option (List JsMsg) :=
  match pWrap E query with
  | some (.ok (_, ms)) => some ms
  | _ => none

/-- Spans and types of the messages. -/
def pageSpans (E : Env) (s : Str) : Option (List (MsgType × Int × Int)) :=
  (pageMsgs E (utf8 s)).map fun ms => ms.map fun m => (m.type, m.start, m.stop)

-- the hypothesis holds of the sample environment; a warning, a typing error, an unknown value and an
-- incomplete query, each with its span
example : PatternsParse testEnv := fun _ _ => rfl

example : pageSpans testEnv "a:2020-01-02 OR b:1".toList = some [(.warning, 2, 12)] ∧
    pageSpans testEnv "a:1 AND b:(5,6, 5)".toList = some [(.error, 16, 17)] ∧
    pageSpans testEnv "a:1 AND b:zz".toList = some [(.error, 10, 11)] ∧
    pageSpans testEnv "a:1 AND ".toList = some [(.error, 7, 8)] := by decide +kernel

/-- **C65 (refuted).** The empty input has a span that begins before the input. -/
theorem C65_empty_refuted : pageSpans testEnv [] = some [(.error, -1, 0)] := by decide +kernel

/-- **C65 (refuted).** A string that does not end has a span behind the input. -/
theorem C65_unterminated_refuted : pageSpans testEnv "a:\"x".toList = some [(.error, 4, 5)] ∧
    (utf8 "a:\"x".toList).length = 4 := by decide +kernel

/-- **C65 (refuted).** Without the restriction to ASCII the page highlights the wrong text: the warning
about the datetime begins at its second character. -/
theorem C65_highlight_refuted :
    pageSpans testEnv "\"é\":2020-01-02".toList = some [(.warning, 5, 15)] ∧
    jsSlice (utf16 "\"é\":2020-01-02".toList) 5 15 = utf16 "020-01-02".toList := by decide +kernel

end Aql
