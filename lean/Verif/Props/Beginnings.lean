import Verif.Proofs.ShapeRead
import Verif.Props.Expectations
/-!
Property C90: where the text before a syntax error can be completed.
-/

namespace Aql

open Spec

variable (E : Env)

/-! ### C90 -/

/-- **C90**, in part. If a text is rejected for lack of a match at the end of `p`, then `p` can be completed to a
query, and all its completions go on with something that the message lists; or `p` ends within something that
has the shape of a time or a network but is none, at a place where a literal is expected.

Missing: in the second case `p` is not the beginning of any query (`C90_text_before_error_completable_refuted`,
`C90_text_before_error_completable_exact`). -/
theorem C90_text_before_error_completable_partial (p r : Str) (e : PErr)
    (h : grammarOut E (decode (utf8 (p ++ r))) = some (.error e)) (hm : "no match".toList <+: e.msg)
    (hp : e.pos.offset = bytesOf p) :
    (∃ t n ws m, Query E (p ++ t) n ∧ e.msg = "no match found, expected: ".toList ++ m ∧ Listed ws m ∧ ∃ w ∈ ws, Met E w t) ∨
      Misshapen E p := by
  obtain ⟨ws, m, h1, h2, -, h4⟩ := C86_expectations_complete E p r e h hm hp
  suffices hv : Viable E p by
    rcases hv with ⟨t, n, hq⟩ | hu
    · exact .inl ⟨t, n, ws, m, hq, h1, h2, h4 t n hq⟩
    · exact .inr hu
  obtain ⟨q, ws, k, hq, ho, -⟩ := rejected_noMatch E h hm
  rw [ho] at hp
  have hp : q.off = bytesOf p := by exact_mod_cast hp
  obtain ⟨l, d, k1, k2, rfl, -⟩ := noMatch_run hq
  rcases (furthest_spec l).2.2.2 with hf | ⟨b, w, hm⟩
  · rw [hf] at hp
    have : p = [] := by
      cases p with
      | nil => rfl
      | cons c p =>
        have := bytesOf_pos (c := c) (s := p)
        rw [← hp] at this
        cases this
    subst this
    obtain ⟨n, hn⟩ := text_one (E := E) (pre := [])
    exact .inl ⟨"a:1".toList, n, [], "a:1".toList, [], ws_nil, ws_nil, .orAnd (.andNot (.notCmp hn)), rfl⟩
  · exact ask_start (ctx := ⟨false, []⟩) (fr := []) (s := p ++ r) ⟨List.prefix_append _ _, l, .fail d, b, b, _, w, k1, k2, trivial, hm, hp⟩

/-- **C90**, what is true instead. The text before the place where a match is missing can be completed to a query if and
only if it does not end within something that has the shape of a time or a network but is none. -/
theorem C90_text_before_error_completable_exact (p r : Str) (e : PErr)
    (h : grammarOut E (decode (utf8 (p ++ r))) = some (.error e)) (hm : "no match".toList <+: e.msg)
    (hp : e.pos.offset = bytesOf p) : Beginning E p ↔ ¬ Misshapen E p := by
  refine ⟨fun hb hs => misshapen_end hs hb, fun hs => ?_⟩
  rcases C90_text_before_error_completable_partial E p r e h hm hp with ⟨t, n, _, _, hq, -⟩ | hu
  · exact ⟨t, n, hq⟩
  · exact (hs hu).elim

theorem text_ne_nil {L : Level} {pre s : Str} {n : Node} (h : Text E L pre s n) : s ≠ [] := by
  induction h with
  | group => simp
  | noArgs _ _ _ _ h => subst h; simp
  | compare _ _ _ _ _ _ h => subst h; simp
  | notCmp _ ih => exact ih
  | not _ _ ih => simp [ih]
  | andNot _ ih => exact ih
  | and _ _ _ _ ih _ => simp [ih]
  | orAnd _ ih => exact ih
  | or _ _ _ _ ih _ => simp [ih]

/-- The first comparison of a text that begins with a small letter. -/
theorem first_cmp {L : Level} {pre s : Str} {n : Node} (h : Text E L pre s n) : ∀ {u : Str}, s = 'a' :: u →
    ∃ s1 r m, s = s1 ++ r ∧ Text E .cmp pre s1 m ∧ NoHead (fun c => ¬ IsWs c) r := by
  have nil : ∀ {pre s n}, Text E .cmp pre s n → ∃ s1 r m, s = s1 ++ r ∧ Text E .cmp pre s1 m ∧ NoHead (fun c => ¬ IsWs c) r :=
    fun h => ⟨_, [], _, by simp, h, fun c t ht => by cases ht⟩
  have tail : ∀ {a w x : Str} {pre : Str}, Space w → (∀ {u : Str}, a = 'a' :: u →
      ∃ s1 r m, a = s1 ++ r ∧ Text E .cmp pre s1 m ∧ NoHead (fun c => ¬ IsWs c) r) → (∃ y, a = 'a' :: y) →
      ∃ s1 r m, a ++ (w ++ x) = s1 ++ r ∧ Text E .cmp pre s1 m ∧ NoHead (fun c => ¬ IsWs c) r := by
    rintro a w x pre ⟨hw, hn⟩ ih ⟨y, ha⟩
    obtain ⟨s1, r, m, rfl, h1, h2⟩ := ih ha
    refine ⟨s1, r ++ (w ++ x), m, by simp, h1, ?_⟩
    cases r with
    | nil =>
      intro c t ht
      cases w with
      | nil => exact (hn rfl).elim
      | cons d w =>
        cases ht
        exact not_not.2 (hw _ (by simp))
    | cons d r =>
      intro c t ht
      cases ht
      exact h2 _ _ rfl
  have head : ∀ {L pre s n}, Text E L pre s n → ∀ {x u : Str}, s ++ x = 'a' :: u → ∃ y, s = 'a' :: y := by
    intro L pre s n h x u hs
    cases s with
    | nil => exact (text_ne_nil E h rfl).elim
    | cons c s =>
      cases hs
      exact ⟨s, rfl⟩
  induction h with
  | group h1 h2 h3 => exact fun _ => nil (.group h1 h2 h3)
  | noArgs h1 h2 h3 h4 h5 => exact fun _ => nil (.noArgs h1 h2 h3 h4 h5)
  | compare h1 h2 h3 h4 h5 h6 h7 => exact fun _ => nil (.compare h1 h2 h3 h4 h5 h6 h7)
  | notCmp h _ => exact fun _ => nil h
  | not hk _ _ =>
    intro u hs
    cases hk <;> cases hs
  | andNot _ ih => exact ih
  | and h1 h2 _ _ ih _ => exact fun hs => tail h2 ih (head h1 hs)
  | orAnd _ ih => exact ih
  | or h1 h2 _ _ ih _ => exact fun hs => tail h2 ih (head h1 hs)

theorem piece_first {t x r u : Str} (h : Piece E t x) (ht : t ++ r = 'a' :: ':' :: u) : t = ['a'] ∧ r = ':' :: u := by
  cases h with
  | quoted => cases ht
  | star => cases ht
  | bare hn hc =>
    rcases t with _ | ⟨c, _ | ⟨d, t⟩⟩
    · exact (hn rfl).elim
    · cases ht
      exact ⟨rfl, rfl⟩
    · cases ht
      exact (not_fieldChar (E := E) (by decide) (by decide) (hc ':' (by simp))).elim

theorem path_first {p r u : Str} {xs : List Str} (h : Path E p xs) (hp : p ++ r = 'a' :: ':' :: u) :
    p = ['a'] ∧ r = ':' :: u := by
  cases h with
  | one h => exact piece_first E h hp
  | cons h _ =>
    rw [List.append_assoc] at hp
    cases (piece_first E h hp).2

theorem ws_first {w r u : Str} {c : Char} (hw : Ws w) (hc : ¬ IsWs c) (h : w ++ r = c :: u) : w = [] ∧ r = c :: u := by
  cases w with
  | nil => exact ⟨rfl, h⟩
  | cons d w =>
    cases h
    exact (hc (hw _ (by simp))).elim

theorem year_first {a r u : Str} (ha : AllDigits a) (h : a ++ r = '2' :: '0' :: '2' :: '1' :: '-' :: u) :
    (a = "2021".toList ∧ r = '-' :: u) ∨ ∃ c r', r = c :: r' ∧ Dig c := by
  rcases a with _ | ⟨c1, _ | ⟨c2, _ | ⟨c3, _ | ⟨c4, _ | ⟨c5, a⟩⟩⟩⟩⟩
  · exact .inr ⟨_, _, h, by decide⟩
  · cases h; exact .inr ⟨_, _, rfl, by decide⟩
  · cases h; exact .inr ⟨_, _, rfl, by decide⟩
  · cases h; exact .inr ⟨_, _, rfl, by decide⟩
  · cases h; exact .inl ⟨rfl, rfl⟩
  · cases h
    exact absurd (ha '-' (by simp)) (by decide)

/-- The month 13 is in no date. -/
theorem date_first {dt r u : Str} {x : Date} (h : DateText dt x) (hv : x.Valid) : dt ++ r ≠ '2' :: '0' :: '2' :: '1' :: '-' :: '1' :: '3' :: u := by
  intro e
  obtain ⟨a, b, c, ha, ha4, hb, hb2, hc, hc2, rfl, -, hm, -⟩ := h
  have hm12 := hv.2.1
  rw [List.append_assoc, List.cons_append, List.append_assoc] at e
  rcases year_first ha e with ⟨-, e⟩ | ⟨d, r', e, hd⟩
  · cases b with
    | nil => cases hb2
    | cons b1 b =>
      cases b with
      | nil => cases hb2
      | cons b2 b =>
        cases b with
        | nil =>
          cases e
          rw [hm] at hm12
          revert hm12
          decide
        | cons => simp at hb2
  · cases e
    exact absurd hd (by decide)

/-- What follows the colon, if it begins neither an operator nor a list, begins with a literal. -/
theorem literal_first {c : Char} {x t : Str} (hc : ¬ IsWs c) (ho : c ∉ ['(', 'e', 'n', '>', '<', '~']) {n : Node}
    (h : Query E ('a' :: ':' :: c :: x ++ t) n) :
    ∃ pre u v z, Lit E pre u v ∧ u ++ z = c :: x ++ t ∧ NoHead (fun c => ¬ IsWs c) z := by
  obtain ⟨w1, s, w2, hw1, hw2, ht, hs0⟩ := h
  have hs' : w1 ++ (s ++ w2) = 'a' :: ':' :: c :: (x ++ t) := hs0.symm
  clear hs0
  obtain ⟨rfl, hs⟩ := ws_first hw1 (by decide) hs'
  clear hs'
  obtain ⟨y, rfl⟩ : ∃ y, s = 'a' :: y := by
    cases s with
    | nil => exact (text_ne_nil E ht rfl).elim
    | cons c s => rw [List.cons_append, List.cons.injEq] at hs; exact ⟨s, by rw [hs.1]⟩
  obtain ⟨s1, r, m, hsr, hcmp, hr⟩ := first_cmp E ht rfl
  rw [hsr, List.append_assoc] at hs
  have hr2 : NoHead (fun c => ¬ IsWs c) (r ++ w2) := by
    intro c x hx
    cases r with
    | nil =>
      cases w2 with
      | nil => cases hx
      | cons d w2 => cases hx; exact not_not.2 (hw2 _ (by simp))
    | cons d r => cases hx; exact hr _ _ rfl
  generalize r ++ w2 = z at hs hr2
  cases hcmp with
  | group => cases hs
  | noArgs hp h1 h2 hop e =>
    subst e
    rw [List.append_assoc] at hs
    obtain ⟨-, hs⟩ := path_first E hp hs
    rw [List.append_assoc] at hs
    obtain ⟨-, hs⟩ := ws_first h1 (by decide) hs
    rw [List.cons_append, List.append_assoc] at hs
    obtain ⟨-, hs⟩ := ws_first h2 hc (List.cons.inj hs).2
    exfalso
    have hc := congrArg List.head? hs
    cases hop <;> (injection hc with hc; subst hc; exact ho (by decide))
  | @compare _ p xs w1 w2 o op w3 s vs _ hp h1 h2 hop h3 hv e =>
    subst e
    rw [List.append_assoc] at hs
    obtain ⟨-, hs⟩ := path_first E hp hs
    rw [List.append_assoc] at hs
    obtain ⟨-, hs⟩ := ws_first h1 (by decide) hs
    rw [List.cons_append, List.append_assoc] at hs
    obtain ⟨-, hs⟩ := ws_first h2 hc (List.cons.inj hs).2
    have hop : o = [] := by
      have hc := congrArg List.head? hs
      cases hop <;> first | rfl | (injection hc with hc; subst hc; exact absurd (by decide) ho)
    subst hop
    rw [List.nil_append, List.append_assoc] at hs
    obtain ⟨-, hs⟩ := ws_first h3 hc hs
    cases hv with
    | one h => exact ⟨_, _, _, z, h, hs, hr2⟩
    | list =>
      have hc := congrArg List.head? hs
      injection hc with hc
      subst hc
      exact absurd (by decide) ho

/-- No query begins like this: there is no such month. -/
theorem no_beginning : ¬ Beginning E "a:2021-13".toList := by
  rintro ⟨t, n, h⟩
  rw [show "a:2021-13".toList = ['a', ':', '2', '0', '2', '1', '-', '1', '3'] from rfl] at h
  obtain ⟨pre0, u0, v0, z, hl0, hs0, hr2⟩ := literal_first E (by decide) (by decide) (x := ['0', '2', '1', '-', '1', '3']) h
  have nodig : ∀ {c x}, z = c :: x → ¬ Dig c ∧ c ≠ '-' := by
    intro c x hz
    have := hr2 c x hz
    rw [not_not] at this
    rcases this with rfl | rfl | rfl | rfl <;> decide
  have number : ∀ {m a x : Str}, Minus m → AllDigits a → a ≠ [] → m ++ (a ++ x) = ('2' :: '0' :: '2' :: '1' :: '-' :: '1' :: '3' :: t) →
      ∃ c y, x = c :: y ∧ (Dig c ∨ c = '-') := by
    intro m a x hm ha _ e
    rcases hm with rfl | rfl
    · rcases year_first ha e with ⟨-, e⟩ | ⟨c, y, e, hd⟩
      · exact ⟨_, _, e, .inr rfl⟩
      · exact ⟨c, y, e, .inl hd⟩
    · cases e
  have lit : ∀ {pre u x}, Lit E pre u x → u ++ z ≠ ('2' :: '0' :: '2' :: '1' :: '-' :: '1' :: '3' :: t) := by
    intro pre u x hl e
    cases hl with
    | string _ h => subst h; cases e
    | regex _ h => subst h; cases e
    | stamp h =>
      obtain ⟨dt, x, n, ct, secs, ft, ns, zt, off, h1, h2, -, -, -, -, rfl, -⟩ := h
      rw [List.append_assoc] at e
      exact date_first h1 h2 e
    | day h =>
      obtain ⟨x, h1, h2, -⟩ := h
      exact date_first h1 h2 e
    | address h =>
      obtain ⟨w, x, y, z', -, -, -, -, rfl, -⟩ := h
      rw [List.append_assoc] at e
      obtain ⟨c, y, e, hc⟩ := number (m := []) (.inl rfl) (fun c hc => numeral_dig hc) (numeral_ne_nil w) e
      cases e
      revert hc
      decide
    | block h _ hu =>
      obtain ⟨w, x, y, z', -, -, -, -, rfl, -⟩ := h
      subst hu
      rw [List.append_assoc, List.append_assoc] at e
      obtain ⟨c, y, e, hc⟩ := number (m := []) (.inl rfl) (fun c hc => numeral_dig hc) (numeral_ne_nil w) e
      cases e
      revert hc
      decide
    | float hm ha ha2 _ _ hu =>
      subst hu
      rw [List.append_assoc, List.append_assoc] at e
      obtain ⟨c, y, e, hc⟩ := number hm ha2 ha e
      cases e
      revert hc
      decide
    | int hm ha ha2 hu =>
      subst hu
      rw [List.append_assoc] at e
      obtain ⟨c, y, e, hc⟩ := number hm ha2 ha e
      obtain ⟨h1, h2⟩ := nodig e
      rcases hc with hc | hc
      · exact h1 hc
      · exact h2 hc
    | true_ => cases e
    | false_ => cases e
  exact lit hl0 hs0

/-- **C90** does not hold in general: a text may be rejected for lack of a match although what comes before the
place of the error is the beginning of no query. -/
theorem C90_text_before_error_completable_refuted : ∃ (E : Env) (p r : Str) (e : PErr),
    grammarOut E (decode (utf8 (p ++ r))) = some (.error e) ∧ "no match".toList <+: e.msg ∧ e.pos.offset = bytesOf p ∧
      ¬ Beginning E p := by
  obtain ⟨e, he, hm, hp⟩ := error_of_lacks testEnv (show lacks testEnv "a:2021-13".toList =
    some (9, "no match found, expected: \"-\"".toList) by decide +kernel)
  exact ⟨testEnv, "a:2021-13".toList, [], e, he, by rw [hm]; decide +kernel, by rw [hp]; decide +kernel, no_beginning testEnv⟩

/-! Texts cut off in various places: all can be completed. -/

example : lacks testEnv "(a:1 ".toList = some (5, "no match found, expected: \")\", \"AND\", \"OR\" or [ \\n\\t\\r]".toList) ∧
    ∃ n, Query testEnv ("(a:1 ".toList ++ ")".toList) n :=
  ⟨by decide +kernel, query_of_reads testEnv (by decide +kernel)⟩

example : lacks testEnv "a.\"b c\".".toList = some (8, "no match found, expected: \"*\", \"\\\"\" or [a-z0-9_-]i".toList) ∧
    ∃ n, Query testEnv ("a.\"b c\".".toList ++ "d:exists".toList) n :=
  ⟨by decide +kernel, query_of_reads testEnv (by decide +kernel)⟩

example : lacks testEnv "a:1. ".toList = some (4, "no match found, expected: [0-9]".toList) ∧
    ∃ n, Query testEnv ("a:1.".toList ++ "5".toList) n :=
  ⟨by decide +kernel, query_of_reads testEnv (by decide +kernel)⟩

/-- A text that ends within a time, but can be completed. -/
example : lacks testEnv "a:2021-12".toList = some (9, "no match found, expected: \"-\"".toList) ∧
    ∃ n, Query testEnv ("a:2021-12".toList ++ "-31".toList) n :=
  ⟨by decide +kernel, query_of_reads testEnv (by decide +kernel)⟩

/-- A value is expected behind the colon. -/
theorem due_a : LitDue E "a:".toList :=
  .one (.mk (q := []) (p := ['a']) (w1 := []) (w2 := []) (o := []) (w3 := []) (.notCmp (.andNot (.orAnd (.start ws_nil))))
    (.one piece_a) ws_nil ws_nil .eq ws_nil)

/-- The text of the refutation ends within something that has the shape of a date. -/
example : Misshapen testEnv "a:2021-13".toList := by
  refine ⟨"a:".toList, "2021-13".toList, "-01".toList, rfl, due_a testEnv,
    .inr (.inl ⟨"2021".toList, "13".toList, "01".toList, by unfold AllDigits; decide, rfl, by unfold AllDigits; decide, rfl,
      by unfold AllDigits; decide, rfl, rfl⟩),
    fun t v h => no_beginning testEnv (((due_a testEnv).hole _ v h).cut ⟨t, rfl⟩), ?_⟩
  rintro d i h -
  have := congrArg List.getLast? h
  simp at this

/-- Behind a day and a space, a time of the day is tried; the text can be completed otherwise. -/
example : lacks testEnv "a:2021-12-31 x".toList = some (13, "no match found, expected: \"AND\", \"OR\", [ \\n\\t\\r], [0-9] or EOF".toList) ∧
    ∃ n, Query testEnv ("a:2021-12-31 ".toList ++ "AND b:1".toList) n :=
  ⟨by decide +kernel, query_of_reads testEnv (by decide +kernel)⟩

end Aql
