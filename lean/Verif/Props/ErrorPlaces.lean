import Verif.Proofs.ErrHole
import Verif.Proofs.Reopen
import Verif.Props.Wrong
import Verif.Props.Beginnings
/-!
Property C91: the text before any other syntax error can be completed, also with the suggested value.
-/

namespace Aql

open Spec

variable (E : Env)

/-! ### C91 -/

/-- The grammar stage rejects with an error recorded at some place, or for lack of a match. -/
theorem rejected_site {s : Str} {e : PErr} (h : grammarOut E (decode (utf8 s)) = some (.error e))
    (hm : ¬ "no match".toList <+: e.msg) : ∃ x r k, s = x ++ r ∧ e.pos.offset = bytesOf x ∧ e.msg = k.kind.text E ∧ Sited E x r k := by
  rw [decode_utf8] at h
  unfold grammarOut at h
  rcases hp : parse E (s.map .ok) with _ | (v | ⟨p, k⟩)
  · rw [hp] at h; cases h
  · rw [hp] at h
    obtain ⟨n, rfl⟩ := parse_node hp
    simp at h
  · rw [hp] at h
    simp only [Option.map_some, Option.some.injEq, Except.error.injEq] at h
    subst h
    obtain ⟨l, r0, hb, -, hq⟩ := parse_big (E := E) (s.map .ok)
    rw [cur_init, encErr_cur, List.nil_append] at hq
    rw [cur_init] at hb
    rw [hp] at hq
    simp only [Option.some.injEq] at hq
    unfold finish at hq
    split at hq
    · rename_i l' e' tl hl
      cases hq
      obtain ⟨x, r, h1, rfl, h3⟩ := site_start (start_er hb hl)
      refine ⟨x, r, _, h1, ?_, rfl, h3⟩
      show ((locAt x r).off : Int) = _
      rw [locAt_off]
    · cases hq
    · cases hq
      exact (hm ⟨_, rfl⟩).elim
    · rename_i q c hl
      exact absurd (hb.shapes hl (wt_grammar _) rfl) id

/-- **C91**, in part. If a text is rejected with another message than a missing match, what comes before the place
of the error can be completed to a query; or it ends within a string or a regular expression that cannot be completed,
at a place where other strings or literals would do.

Missing: in these cases the text is the beginning of no query (`C91_text_before_error_completable_refuted`). -/
theorem C91_text_before_error_completable_partial (s : Str) (e : PErr)
    (h : grammarOut E (decode (utf8 s)) = some (.error e)) (hm : ¬ "no match".toList <+: e.msg) :
    ∃ p r, s = p ++ r ∧ e.pos.offset = bytesOf p ∧ (Beginning E p ∨ HalfString E p ∨ OddPattern E p) := by
  obtain ⟨x, r, k, h1, h2, -, h3⟩ := rejected_site E h hm
  refine ⟨x, r, h1, h2, ?_⟩
  rcases h3.2 with h3 | ⟨q, t, rfl, h3, h4⟩ | ⟨q, t, rfl, h3, h4⟩
  · exact .inl ((h3 [] [] .nil).left)
  · by_cases hl : ∃ u y, StrBody (t ++ u) y
    · obtain ⟨u, y, hl⟩ := hl
      exact .inl ((h3 _ _ hl).cut ⟨u ++ ['"'], by simp⟩)
    · exact .inr (.inl ⟨q, t, rfl, h4, fun u y hy => hl ⟨u, y, hy⟩, h3⟩)
  · by_cases hl : ∃ u v, Lit E q ('/' :: t ++ u) v
    · obtain ⟨u, v, hl⟩ := hl
      exact .inl ((h3 _ _ hl).cut ⟨u, by simp⟩)
    · exact .inr (.inr ⟨q, t, rfl, h4, fun u y hy => hl ⟨u, y, hy⟩, h3⟩)

/-- A literal that begins with a quote is a string. -/
theorem string_first {pre u z t : Str} {v : Val} (h : Lit E pre u v) (hs : u ++ z = '"' :: t) :
    ∃ s x, StrBody s x ∧ u = '"' :: (s ++ ['"']) ∧ v = .str x (posAt pre u) ∧ s ++ '"' :: z = t := by
  have dig : ∀ c w, u = c :: w → Dig c → False := by
    rintro c w rfl hc
    cases hs
    exact absurd hc (by decide)
  have minus : ∀ {m a w : Str}, Minus m → a ≠ [] → AllDigits a → u = m ++ (a ++ w) → False := by
    intro m a w hm ha hd hu
    rcases hm with rfl | rfl
    · obtain ⟨c, a, rfl⟩ := List.exists_cons_of_ne_nil ha
      exact dig c (a ++ w) hu (hd c (by simp))
    · rw [hu] at hs
      cases hs
  cases h with
  | string h hu =>
    subst hu
    refine ⟨_, _, h, rfl, rfl, ?_⟩
    simpa using hs
  | regex _ hu => subst hu; cases hs
  | stamp h => obtain ⟨c, u, h, hc⟩ := stamp_cons h; exact (dig c u h hc).elim
  | day h => obtain ⟨c, u, h, hc⟩ := day_cons h; exact (dig c u h hc).elim
  | address h => obtain ⟨c, u, h, hc⟩ := addr_cons h []; exact (dig c u (by simpa using h) hc).elim
  | block h _ ha => obtain ⟨c, u, h, hc⟩ := addr_cons h _; exact (dig c u (ha.trans h) hc).elim
  | float hm hp hp2 _ _ ha => exact (minus hm hp hp2 ha).elim
  | int hm hp hp2 ha => exact (minus hm hp hp2 (w := []) (by simpa using ha)).elim
  | true_ =>
    have hc := congrArg List.head? hs
    injection hc with hc
    exact absurd hc (by decide)
  | false_ =>
    have hc := congrArg List.head? hs
    injection hc with hc
    exact absurd hc (by decide)

/-- No query begins like this: the string has the code of half a character. -/
theorem half_string : ¬ Beginning E "a:\"\\ud800".toList := by
  rintro ⟨t, n, h⟩
  rw [show "a:\"\\ud800".toList = ['a', ':', '"', '\\', 'u', 'd', '8', '0', '0'] from rfl] at h
  obtain ⟨pre, u, v, z, hl, hs, -⟩ := literal_first E (by decide) (by decide) (x := ['\\', 'u', 'd', '8', '0', '0']) h
  obtain ⟨s, x, hb, -, -, hs⟩ := string_first E hl hs
  cases hb with
  | nil => cases hs
  | plain _ h => exact h (List.cons.inj hs).1
  | escape h =>
    rw [(List.cons.inj (List.cons.inj hs).2).1] at h
    cases h
  | @unicode _ _ _ _ ha hb hc hd _ _ _ h1 h2 h3 h4 h5 h6 =>
    cases hs
    have e1 : ha = 13 := by cases h1 with
      | digit _ h => exact absurd h (by decide)
      | lower => rfl
      | upper _ h => exact absurd h (by decide)
    have e2 : hb = 8 := by cases h2 with
      | digit => rfl
      | lower h => exact absurd h (by decide)
      | upper h => exact absurd h (by decide)
    have e3 : hc = 0 := by cases h3 with
      | digit => rfl
      | lower h => exact absurd h (by decide)
      | upper h => exact absurd h (by decide)
    have e4 : hd = 0 := by cases h4 with
      | digit => rfl
      | lower h => exact absurd h (by decide)
      | upper h => exact absurd h (by decide)
    subst e1 e2 e3 e4 h5
    revert h6
    decide

/-- **C91** does not hold in general: the text before an error may be the beginning of no query. -/
theorem C91_text_before_error_completable_refuted : ∃ (E : Env) (p r : Str) (e : PErr),
    grammarOut E (decode (utf8 (p ++ r))) = some (.error e) ∧ ¬ "no match".toList <+: e.msg ∧ e.pos.offset = bytesOf p ∧
      ¬ Beginning E p := by
  obtain ⟨e, he, hm, hp⟩ := error_of_lacks testEnv (show lacks testEnv "a:\"\\ud800".toList =
    some (9, "unterminated string, check for missing closing [\"] or unescaped [\\]".toList) by decide +kernel)
  exact ⟨testEnv, "a:\"\\ud800".toList, [], e, he, by rw [hm]; decide +kernel, by rw [hp]; decide +kernel, half_string testEnv⟩

/-- **C91**, exactly. The text before an error other than a missing match can be completed, unless it ends within a
string or a pattern that is not closed; then it can exactly if the string or the pattern can. -/
theorem C91_exact (s : Str) (e : PErr)
    (h : grammarOut E (decode (utf8 s)) = some (.error e)) (hm : ¬ "no match".toList <+: e.msg) :
    ∃ p r, s = p ++ r ∧ e.pos.offset = bytesOf p ∧
      ((e.msg = "unterminated string, check for missing closing [\"] or unescaped [\\]".toList ∧
          ∃ q t, p = q ++ '"' :: t ∧ Spelling E t ∧ (Beginning E p ↔ ∃ u y, StrBody (t ++ u) y)) ∨
       (e.msg = "unterminated regular expression, did you forget a closing '/'?".toList ∧
          ∃ q t, p = q ++ '/' :: t ∧ RegexBody t ∧ (Beginning E p ↔ ∃ u y, Lit E q ('/' :: t ++ u) y)) ∨
       (e.msg ≠ "unterminated string, check for missing closing [\"] or unescaped [\\]".toList ∧
          e.msg ≠ "unterminated regular expression, did you forget a closing '/'?".toList ∧ Beginning E p)) := by
  obtain ⟨q, t, v, m, rfl, hq, hw, -, hi⟩ := (C119_exact E s e.msg e.pos.len e.pos.offset).1 ⟨e, h, rfl, rfl, rfl, hm⟩
  obtain ⟨r, k, rfl, -⟩ := says_clause hw
  exact ⟨q ++ v, r, by simp, hi, before_wrong hq hw⟩

/-- Within a string or a regular expression that can be completed. -/
example : lacks testEnv "a:\"x".toList =
      some (4, "unterminated string, check for missing closing [\"] or unescaped [\\]".toList) ∧
    ∃ n, Query testEnv ("a:\"x".toList ++ "\"".toList) n :=
  ⟨by decide +kernel, query_of_reads testEnv (by decide +kernel)⟩
example : lacks testEnv "(a:1 OR b:/x y".toList =
      some (14, "unterminated regular expression, did you forget a closing '/'?".toList) ∧
    ∃ n, Query testEnv ("(a:1 OR b:/x y".toList ++ "/)".toList) n :=
  ⟨by decide +kernel, query_of_reads testEnv (by decide +kernel)⟩

/-- Where a value is expected. -/
example : lacks testEnv "(a:1 OR b:(1, )".toList = some (14, "unexpected closing parenthesis, expecting values".toList) ∧
    ∃ n, Query testEnv ("(a:1 OR b:(1, ".toList ++ "2))".toList) n :=
  ⟨by decide +kernel, query_of_reads testEnv (by decide +kernel)⟩

/-- The text of the refutation ends within half a string. -/
example : HalfString testEnv "a:\"\\ud800".toList := by
  have hole : ∀ t x, StrBody t x → Beginning testEnv ("a:".toList ++ '"' :: (t ++ ['"'])) :=
    fun t x h => ⟨[], _, [], _, [], ws_nil, ws_nil, .orAnd (.andNot (.notCmp (.compare (p := ['a']) (w1 := []) (w2 := []) (o := [])
      (w3 := []) (.one piece_a) ws_nil ws_nil .eq ws_nil (.one (.string h rfl)) rfl))), by simp⟩
  have hd : HexChar testEnv 'd' := by unfold HexChar; decide
  have h8 : HexChar testEnv '8' := by unfold HexChar; decide
  have h0 : HexChar testEnv '0' := by unfold HexChar; decide
  exact ⟨"a:".toList, ['\\', 'u', 'd', '8', '0', '0'], rfl, .unicode hd h8 h0 h0 .nil,
    fun t x h => half_string testEnv ((hole _ x h).cut ⟨t ++ ['"'], by simp⟩), hole⟩

/-! ### The suggestion -/

/-- A string begins with no other escapes. -/
theorem escape_inv {k : Char} {s y : Str} (h : StrBody ('\\' :: k :: s) y) : (∃ d, Escape k d) ∨ k = 'u' := by
  cases h with
  | plain _ h => exact (h rfl).elim
  | escape h => exact .inl ⟨_, h⟩
  | unicode => exact .inr rfl

theorem escape_rest {k d : Char} {s y : Str} (hk : Escape k d) (h : StrBody ('\\' :: k :: s) y) : ∃ z, StrBody s z := by
  cases h with
  | plain _ h => exact (h rfl).elim
  | escape _ h => exact ⟨_, h⟩
  | unicode => cases hk

theorem quoteChar_inv {c : Char} {s y : Str} (h : StrBody (quoteChar E c ++ s) y) : WritableChar E c ∧ ∃ z, StrBody s z := by
  have bad : ∀ {k : Char} {s y : Str}, StrBody ('\\' :: k :: s) y → k ∈ ['a', 'v', 'x', 'U'] → False := by
    intro k s y h hk
    simp only [List.mem_cons, List.not_mem_nil, or_false] at hk
    rcases escape_inv h with ⟨d, hd⟩ | rfl
    · rcases hk with rfl | rfl | rfl | rfl <;> cases hd
    · revert hk; decide
  have plain : ∀ {s y : Str}, StrBody (c :: s) y → c ≠ '\\' → ∃ z, StrBody s z := by
    intro s y h hc
    cases h with
    | plain _ _ _ h => exact ⟨_, h⟩
    | escape => exact (hc rfl).elim
    | unicode => exact (hc rfl).elim
  unfold quoteChar at h
  unfold WritableChar
  have e : c.val.toNat = c.toNat := rfl
  simp only [val_eq, UInt32.lt_iff_toNat_lt, e, show (7 : UInt32).toNat = 7 from rfl, show (8 : UInt32).toNat = 8 from rfl,
    show (12 : UInt32).toNat = 12 from rfl, show (10 : UInt32).toNat = 10 from rfl,
    show (13 : UInt32).toNat = 13 from rfl, show (9 : UInt32).toNat = 9 from rfl,
    show (11 : UInt32).toNat = 11 from rfl, show (32 : UInt32).toNat = 32 from rfl,
    show (127 : UInt32).toNat = 127 from rfl, show (128 : UInt32).toNat = 128 from rfl,
    show (0x10000 : UInt32).toNat = 0x10000 from rfl] at h
  simp only [List.mem_cons, List.not_mem_nil, or_false]
  by_cases h1 : c = '"'
  · rw [if_pos h1] at h
    exact ⟨by rw [h1]; exact .inl ⟨by decide, by decide, .inl (by decide)⟩, escape_rest .quote h⟩
  rw [if_neg h1] at h
  by_cases h2 : c = '\\'
  · rw [if_pos h2] at h
    exact ⟨by rw [h2]; exact .inl ⟨by decide, by decide, .inl (by decide)⟩, escape_rest .backslash h⟩
  rw [if_neg h2] at h
  by_cases h3 : c.toNat = 7
  · rw [if_pos h3] at h; exact (bad h (by decide)).elim
  rw [if_neg h3] at h
  by_cases h4 : c.toNat = 8
  · rw [if_pos h4] at h; exact ⟨by omega, escape_rest .b h⟩
  rw [if_neg h4] at h
  by_cases h5 : c.toNat = 12
  · rw [if_pos h5] at h; exact ⟨by omega, escape_rest .f h⟩
  rw [if_neg h5] at h
  by_cases h6 : c.toNat = 10
  · rw [if_pos h6] at h; exact ⟨by omega, escape_rest .n h⟩
  rw [if_neg h6] at h
  by_cases h7 : c.toNat = 13
  · rw [if_pos h7] at h; exact ⟨by omega, escape_rest .r h⟩
  rw [if_neg h7] at h
  by_cases h8 : c.toNat = 9
  · rw [if_pos h8] at h; exact ⟨by omega, escape_rest .t h⟩
  rw [if_neg h8] at h
  by_cases h9 : c.toNat = 11
  · rw [if_pos h9] at h; exact (bad h (by decide)).elim
  rw [if_neg h9] at h
  by_cases h10 : c.toNat < 32 ∨ c.toNat = 127
  · rw [if_pos h10] at h; exact (bad h (by decide)).elim
  rw [if_neg h10] at h
  by_cases h11 : c.toNat < 128
  · rw [if_pos h11] at h; exact ⟨by omega, plain h h2⟩
  rw [if_neg h11] at h
  by_cases h12 : E.isPrint c = true
  · rw [if_pos h12] at h; exact ⟨.inl ⟨by omega, by omega, .inr h12⟩, plain h h2⟩
  rw [if_neg h12] at h
  by_cases h13 : c.toNat < 0x10000
  · rw [if_pos h13, hexDigits_four] at h
    refine ⟨.inl ⟨by omega, by omega, .inl h13⟩, ?_⟩
    cases h with
    | plain _ h => exact (h rfl).elim
    | escape h => cases h
    | unicode _ _ _ _ _ _ h => exact ⟨_, h⟩
  · rw [if_neg h13] at h; exact (bad h (by decide)).elim

theorem quote_inv {x y : Str} (h : StrBody (x.flatMap (quoteChar E)) y) : ∀ c ∈ x, WritableChar E c := by
  induction x generalizing y with
  | nil => simp
  | cons c x ih =>
    rw [List.flatMap_cons] at h
    obtain ⟨h1, z, h2⟩ := quoteChar_inv E h
    intro d hd
    rcases List.mem_cons.1 hd with rfl | hd
    · exact h1
    · exact ih h2 d hd

/-- The message tells the kind. -/
theorem unknown_kind {k : ErrKind} (hm : "unknown type of value".toList <+: k.text E) : ∃ u, k = .unknownValue u := by
  have other : ∀ {a b c d : Str}, a <+: b ++ c ++ d → ¬ (a <+: b ∨ b <+: a) → False := by
    intro a b c d ha hb
    rw [List.append_assoc] at ha
    exact hb (List.prefix_or_prefix_of_prefix ha (List.prefix_append _ _))
  have other' : ∀ {a b c d z : Str}, a <+: b ++ c ++ d ++ z → ¬ (a <+: b ∨ b <+: a) → False := by
    intro a b c d z ha hb
    rw [List.append_assoc] at ha
    exact other ha hb
  cases k
  case unknownValue u => exact ⟨u, rfl⟩
  case badRegex => exact (other' hm (by decide +kernel)).elim
  case badInt => exact (other hm (by decide +kernel)).elim
  case badFloat => exact (other hm (by decide +kernel)).elim
  case badBool => exact (other hm (by decide +kernel)).elim
  case badNet => exact (other' hm (by decide +kernel)).elim
  case badTime => exact (other' hm (by decide +kernel)).elim
  case noMatch l =>
    replace hm : _ <+: "no match found, expected: ".toList ++ listJoin l := hm
    rw [← List.append_nil (_ ++ listJoin l)] at hm
    exact (other hm (by decide +kernel)).elim
  all_goals exact absurd hm (show ¬ "unknown type of value".toList <+: String.toList _ by decide +kernel)

/-- **C91**, the suggestion. If a text is rejected because of a word that is no value, the message repeats the word
and suggests a text. The suggestion is a literal exactly if all characters of the word can be written; then it
denotes the word, and can be typed in its place and completed to a query. -/
theorem C91_suggestion_fits (s : Str) (e : PErr) (h : grammarOut E (decode (utf8 s)) = some (.error e))
    (hm : "unknown type of value".toList <+: e.msg) :
    ∃ p u r t, s = p ++ (u ++ r) ∧ e.pos.offset = bytesOf p ∧
      e.msg = "unknown type of value [".toList ++ u ++ "] -- did you mean ".toList ++ t ++ "?".toList ∧
      ((∃ v, Lit E p t v) ↔ ∀ c ∈ u, WritableChar E c) ∧
      ∀ v, Lit E p t v → v = .str u (posAt p t) ∧ Beginning E (p ++ t) := by
  have hn : ¬ "no match".toList <+: e.msg := by
    intro h2
    have := List.prefix_of_prefix_length_le h2 hm (by decide +kernel)
    revert this
    decide +kernel
  obtain ⟨x, r, k, h1, h2, h3, h4⟩ := rejected_site E h hn
  rw [h3] at hm
  obtain ⟨u, hu⟩ := unknown_kind E hm
  obtain ⟨hl, r, rfl⟩ := h4.1 u hu
  have key : ∀ v, Lit E x (quote E u) v → (∀ c ∈ u, WritableChar E c) ∧ v = .str u (posAt x (quote E u)) := by
    intro v hv
    obtain ⟨s, y, hb, hs, rfl, -⟩ := string_first E (z := []) hv (by rw [List.append_nil]; rfl)
    have hs : u.flatMap (quoteChar E) = s := by
      have := (List.cons.inj hs).2
      exact List.append_cancel_right this
    subst hs
    have hw := quote_inv E hb
    have := unquoteBody_of hb
    rw [unquoteBody_of (strBody_quote hw)] at this
    cases this
    exact ⟨hw, rfl⟩
  refine ⟨x, u, r, quote E u, h1, h2, ?_, ⟨fun ⟨v, hv⟩ => (key v hv).1, fun hw => ⟨_, .string (strBody_quote hw) rfl⟩⟩,
    fun v hv => ⟨(key v hv).2, hl _ _ hv⟩⟩
  rw [h3, hu]
  rfl

/-- The suggestion, typed in place of the word. -/
example : lacks testEnv "a:foo OR b:1".toList =
      some (2, "unknown type of value [foo] -- did you mean \"foo\"?".toList) ∧
    ∃ n, Query testEnv "a:\"foo\" OR b:1".toList n :=
  ⟨by decide +kernel, query_of_reads testEnv (by decide +kernel)⟩

/-- The word ends at the next space. So the suggestion may swallow a parenthesis; the text can still be completed. -/
example : lacks testEnv "(a:foo)".toList = some (3, "unknown type of value [foo)] -- did you mean \"foo)\"?".toList) ∧
    (lacks testEnv "(a:\"foo)\"".toList).isSome ∧ ∃ n, Query testEnv ("(a:\"foo)\"".toList ++ ")".toList) n :=
  ⟨by decide +kernel, by decide +kernel, query_of_reads testEnv (by decide +kernel)⟩

/-- A suggestion that is no literal. -/
example : lacks testEnv "a:\x01".toList = some (2, "unknown type of value [\x01] -- did you mean \"\\x01\"?".toList) ∧
    ¬ WritableChar testEnv '\x01' ∧ (lacks testEnv "a:\"\\x01\"".toList).isSome :=
  ⟨by decide +kernel, by unfold WritableChar; decide, by decide +kernel⟩

end Aql
