import Verif.Proofs.WantValue
import Verif.Spec.Beginning
/-!
The tests that fail at the furthest place of a run can all be met, except within times and networks.
-/

namespace Aql

open Spec

variable {E : Env} {ctx : Ctx} {fr fr' : VFrame} {pre s a b q w : Str} {f : Bool} {v : PV}

/-! ### What can follow -/

/-- What is wanted after `q` can follow, or would only lead to something that is no time or network. -/
def Good (E : Env) (q : Str) (f : Bool) (w : Str) : Prop :=
  (f = false ∧ ∃ T t n, readWant w = some T ∧ T.Begins E t ∧ Query E (q ++ t) n) ∨
  (f = true ∧ w = ['.'] ∧ ∃ n, Query E q n) ∨ (f = false ∧ Misled E q w)

theorem good_of {T : Terminal} {y : Str} (h1 : readWant w = some T) (h2 : T.Begins E y) (h3 : Beginning E (q ++ y)) :
    Good E q false w := by
  obtain ⟨t, n, h⟩ := h3
  exact .inl ⟨rfl, T, y ++ t, n, h1, begins_append h2, by rw [← List.append_assoc]; exact h⟩

theorem good_lit {t : Str} (h1 : readWant w = some (.lit t false)) (h3 : Beginning E (q ++ t)) : Good E q false w :=
  good_of h1 (by simpa using begins_lit (t := t) (y := [])) h3

theorem read_ws : readWant "[ \\n\\t\\r]".toList = some (.cls [' ', '\n', '\t', '\r'] [] false false) := by decide +kernel

theorem good_ws (h3 : Beginning E (q ++ [' '])) : Good E q false "[ \\n\\t\\r]".toList :=
  good_of read_ws (cls_begins.2 ⟨' ', [], rfl, by simp [clsMatch]⟩) h3

theorem not_eof {T : Terminal} (h : readWant w = some T) : w ≠ "EOF".toList := by
  rintro rfl
  rw [show readWant "EOF".toList = none by decide +kernel] at h
  cases h

theorem Spec.LitDue.want (h : LitDue E pre) (hi : InsideW E pre q f w) : Good E q f w := by
  obtain ⟨rfl, x, y, T, rfl, hT, hb, hy⟩ := hi
  by_cases hl : ∃ t v, Met E w t ∧ Lit E pre (x ++ t) v
  · obtain ⟨t, v, hm, hl⟩ := hl
    rcases hm with ⟨he, -⟩ | ⟨T', hT', hb'⟩
    · exact (not_eof hT he).elim
    · exact good_of hT' hb' (by rw [List.append_assoc]; exact h.hole _ v hl)
  · rcases hy with ⟨v, hv⟩ | ⟨hw, hy⟩
    · exact (hl ⟨y, v, .inr ⟨T, hT, hb⟩, hv⟩).elim
    · by_cases hd : w = "\" \"".toList ∧ ∃ i, DayText x i
      · obtain ⟨rfl, i, hd⟩ := hd
        exact good_lit (t := [' ']) (by decide +kernel) (by rw [List.append_assoc]; exact h.space (.day hd))
      · exact .inr (.inr ⟨rfl, pre, x, y, rfl, h, hy, hw, .inr ⟨T, hT, hb⟩, fun t v hm hv => hl ⟨t, v, hm, hv⟩,
          fun hw i hi => hd ⟨hw, i, hi⟩⟩)

/-! ### Value lists -/

theorem ws_snoc {u : Str} (h : Ws u) : Ws (u ++ [' ']) := by
  intro c hc
  rcases List.mem_append.1 hc with hc | hc
  · exact h c hc
  · exact space_one.1 c hc

theorem read_open : readWant "\"(\"".toList = some (.lit ['('] false) := by decide +kernel
theorem read_close : readWant "\")\"".toList = some (.lit [')'] false) := by decide +kernel
theorem read_comma : readWant "\",\"".toList = some (.lit [','] false) := by decide +kernel
theorem read_colon : readWant "\":\"".toList = some (.lit [':'] false) := by decide +kernel

theorem lim_elem (hc : ctx.inv = false) (h : Lim E ctx listElem fr pre s q) : bytesOf pre ≤ bytesOf q := lim_ws hc (lim_seq h).1

/-- Where the values begin with a parenthesis, the list ends as it should: otherwise there are errors. -/
theorem paren_list (hd : (∃ v a b g, Ok E ctx (.choice [.action .onValueList2 (.seq es), .action .onValueList17 (.label .value (.rule .Value))])
      [] pre ('(' :: s) v a b g) ∨
    No E ctx (.choice [.action .onValueList2 (.seq es), .action .onValueList17 (.label .value (.rule .Value))]) [] pre ('(' :: s))
    (hn : NoS E ctx es [] pre ('(' :: s)) : False := by
  rcases hd with ⟨v, a, b, g, hk⟩ | hk
  · obtain ⟨-, ⟨_, hk⟩ | ⟨-, ⟨_, hk⟩ | ⟨-, hk⟩⟩⟩ := ok_choice.1 hk
    · obtain ⟨_, hk, -⟩ := ok_action.1 hk
      exact Ok.clash hk (no_seq.2 hn)
    · obtain ⟨_, hk, -⟩ := ok_action.1 hk
      obtain ⟨-, _, hk⟩ := ok_label.1 hk
      have hs := hk.1
      obtain ⟨x, -, hx⟩ := value_lit (okR.1 hk).2
      obtain ⟨c, t, rfl, hc⟩ := lit_cons hx
      cases hs
      revert hc
      decide
    · exact hk.elim
  · obtain ⟨-, hk, -⟩ := no_choice.1 hk
    rw [no_action, no_label, noR] at hk
    unfold RuleNo at hk
    rw [show grammar .Value = .choice [.action .onValue2 (.label .val (.choice [.rule .QuotedValue, .rule .RegexValue, .rule .BareValue])),
      .action .onValue8 (.plus (.cls [' ', '\n', '\t', '\r'] [] false true "[^ \\n\\t\\r]".toList))] from rfl] at hk
    obtain ⟨-, hk, -⟩ := no_choice.1 hk
    have := no_cls.1 (no_plus.1 (no_action.1 hk)) _ _ rfl
    simp [clsMatch] at this

theorem want_valueList (hc : ctx.inv = false) (hdue : ValuesDue E pre) (h : Want E ctx (.rule .ValueList) fr pre s q f w)
    (hs : Stop E ctx (.rule .ValueList) fr pre s q) : Good E q f w := by
  have hv := hdue.hole
  replace h := want_rule h
  have hd := ask_done h.ask
  replace hs := hs.rule
  rw [show grammar .ValueList = .choice [.action .onValueList2
        (.seq [.lit ['('] false "\"(\"".toList, .rule .ws, .label .first (.rule .Value),
          .label .rest (.star listElem), .rule .ws, .lit [')'] false "\")\"".toList]),
      .action .onValueList17 (.label .value (.rule .Value))] from rfl] at h hs hd
  replace h := want_choice h
  rcases h with h | ⟨n1, -, h | ⟨-, -, h⟩⟩
  · -- white space or a comma after the items
    have space : ∀ {w t r w1}, Ws w → (∃ x xs, Items E (pre ++ '(' :: w) (t ++ r) (x :: xs)) → Ws w1 →
        Good E (pre ++ ['('] ++ w ++ t ++ r ++ w1) false "[ \\n\\t\\r]".toList := by
      rintro w t r w1 hw ⟨x, xs, hi⟩ h1
      have := hv.items hw hi (ws_snoc h1)
      exact good_ws (by simpa using this)
    have comma : ∀ {w t r w1}, Ws w → (∃ x xs, Items E (pre ++ '(' :: w) (t ++ r) (x :: xs)) → Ws w1 →
        Good E (pre ++ ['('] ++ w ++ t ++ r ++ w1) false "\",\"".toList := by
      rintro w t r w1 hw ⟨x, xs, hi⟩ h1
      have := (hv.item hw hi h1 ws_nil).here
      exact good_lit read_comma (by simpa using this)
    replace h := want_seq (want_action h)
    rcases h with ⟨h, -⟩ | ⟨_, _, _, _, h0, ⟨h, -⟩ | ⟨_, w, _, _, h1, ⟨h, hL⟩ | ⟨_, t, _, _, h2, ⟨h, hL⟩ | ⟨_, r, _, _, h3, ⟨h, -⟩ |
        ⟨_, w1, _, _, h4, ⟨h, -⟩ | ⟨_, _, _, _, -, h⟩⟩⟩⟩⟩⟩
    · obtain ⟨rfl, rfl, rfl⟩ := want_lit hc h
      refine good_lit read_open ?_
      have := (hv.first ws_nil).here
      simpa using this
    · obtain ⟨rfl, rfl, rfl, -⟩ := ok_lit1.1 h0
      obtain ⟨rfl, rfl, w, hw, rfl⟩ := want_ws hc h
      have := (hv.first (ws_snoc hw)).here
      exact good_ws (by simpa using this)
    · obtain ⟨rfl, rfl, rfl, -⟩ := ok_lit1.1 h0
      have hw := (rule_ws.1 (okR.1 h1).2).2.2.1
      have hl := LitDue.first hdue hw
      have h := want_value hc (want_label h) (Stop.label fun v a b g hk =>
        lim_elem hc (lim_star (lim_label (hL v a b g hk).1)).1)
      rw [show pre ++ ['('] ++ w = pre ++ '(' :: w by simp] at h
      exact hl.want h
    · obtain ⟨rfl, rfl, rfl, -⟩ := ok_lit1.1 h0
      have hw := (rule_ws.1 (okR.1 h1).2).2.2.1
      obtain ⟨-, _, h2⟩ := ok_label.1 h2
      obtain ⟨x, -, hx⟩ := value_lit (okR.1 h2).2
      obtain ⟨r, y, hrow, h, hN⟩ := want_star (want_label h)
      obtain ⟨xs, hit⟩ := row_items hrow rfl hx
      rw [show pre ++ ['('] ++ w = pre ++ '(' :: w by simp] at hit
      replace h := want_seq h
      rcases h with ⟨h, -⟩ | ⟨_, w1, _, _, k1, ⟨h, -⟩ | ⟨_, _, _, _, k2, ⟨h, -⟩ | ⟨_, w2, _, _, k3, ⟨h, -⟩ | ⟨_, _, _, _, -, h⟩⟩⟩⟩
      · obtain ⟨rfl, rfl, w1, hw1, rfl⟩ := want_ws hc h
        exact space hw ⟨_, _, hit⟩ hw1
      · obtain ⟨rfl, rfl, rfl⟩ := want_lit hc h
        exact comma hw ⟨_, _, hit⟩ (rule_ws.1 (okR.1 k1).2).2.2.1
      · obtain ⟨-, rfl, rfl, -⟩ := ok_lit1.1 k2
        obtain ⟨rfl, rfl, w2, hw2, rfl⟩ := want_ws hc h
        have := (hv.item hw hit (rule_ws.1 (okR.1 k1).2).2.2.1 (ws_snoc hw2)).here
        exact good_ws (by simpa using this)
      · have hst : Stop E ctx (.rule .Value) _ _ _ q := fun v a b g hk => by
          have := lim_elem hc (hN _ _ _ _ (ok_seq.2 ⟨_, _, _, _, k1, _, rfl, _, _, _, _, k2, _, rfl, _, _, _, _, k3, _, rfl,
            _, _, _, _, hk, [], (List.append_nil _).symm, rfl, rfl, rfl, rfl⟩))
          simpa using this
        have h := want_value hc h hst
        obtain ⟨-, rfl, rfl, -⟩ := ok_lit1.1 k2
        have hl := LitDue.next hdue hw hit (rule_ws.1 (okR.1 k1).2).2.2.1 (rule_ws.1 (okR.1 k3).2).2.2.1
        rw [show pre ++ ['('] ++ w ++ t ++ r ++ w1 ++ [','] ++ w2 = pre ++ '(' :: w ++ (t ++ r ++ (w1 ++ ',' :: w2)) by simp] at h
        exact hl.want h
      · exact h.elim
    · obtain ⟨rfl, rfl, rfl, -⟩ := ok_lit1.1 h0
      have hw := (rule_ws.1 (okR.1 h1).2).2.2.1
      obtain ⟨-, _, h2⟩ := ok_label.1 h2
      obtain ⟨x, -, hx⟩ := value_lit (okR.1 h2).2
      obtain ⟨-, _, h3⟩ := ok_label.1 h3
      obtain ⟨-, vs, -, h3⟩ := ok_star.1 h3
      obtain ⟨xs, -, -, hit⟩ := items_of h3 rfl hx
      rw [show pre ++ ['('] ++ w = pre ++ '(' :: w by simp] at hit
      obtain ⟨rfl, rfl, w1, hw1, rfl⟩ := want_ws hc h
      exact space hw ⟨_, _, hit⟩ hw1
    · have hn := want_lit_no hc h
      obtain ⟨rfl, rfl, e, -⟩ := ok_lit1.1 h0
      subst e
      exact (paren_list hd (.inr ⟨_, _, _, _, h0, .inr ⟨_, _, _, _, h1, .inr ⟨_, _, _, _, h2, .inr ⟨_, _, _, _, h3, .inr ⟨_, _, _, _, h4,
        .inl hn⟩⟩⟩⟩⟩)).elim
    · exact h.elim
  · exact (LitDue.one hdue).want (want_value hc (want_label (want_action h)) (((hs.next n1).first.action h).label))
  · exact h.elim

/-! ### Fields -/

theorem read_field : readWant "[a-z0-9_-]i".toList = some (.cls ['_', '-'] [('a', 'z'), ('0', '9')] true false) := by decide +kernel
theorem read_star : readWant "\"*\"".toList = some (.lit ['*'] false) := by decide +kernel

/-- A segment of a path can go on with what is wanted. -/
theorem want_piece (hc : ctx.inv = false) (h : Want E ctx (.rule .FieldPiece) fr pre s q f w)
    (hs : Stop E ctx (.rule .FieldPiece) fr pre s q) :
    f = false ∧ ∃ x y T z, q = pre ++ x ∧ readWant w = some T ∧ T.Begins E y ∧ Piece E (x ++ y) z := by
  replace h := want_rule h
  replace hs := hs.rule
  rw [show grammar .FieldPiece = .choice [.rule .QuotedFieldPiece, .rule .UnquotedFieldPiece, .rule .Star] from rfl] at h hs
  replace h := want_choice h
  rcases h with h | ⟨-, -, h | ⟨-, -, h | ⟨-, -, h⟩⟩⟩
  · have h1 := want_rule h
    obtain ⟨rfl, rfl, rfl⟩ := want_quoted hc (want_label (want_action h1)) ((hs.first.rule.action h1).label)
    exact ⟨rfl, [], ['"', '"'], _, _, by simp, read_quote, begins_lit (t := ['"']), .quoted (s := []) .nil⟩
  · obtain ⟨x, y, hr, h1, -⟩ := want_plus (want_action (want_rule h))
    obtain ⟨rfl, rfl, rfl⟩ := want_cls hc h1
    have ha : clsMatch E ['_', '-'] [('a', 'z'), ('0', '9')] true false 'a' = true := by
      simp [clsMatch, goLower_ascii, asciiLower]
    refine ⟨rfl, x, ['a'], _, _, rfl, read_field, cls_begins.2 ⟨'a', [], rfl, ha⟩, .bare (by simp) fun c hc => ?_⟩
    rcases List.mem_append.1 hc with hc | hc
    · exact cls_field.1 (row_cls hr c hc)
    · rw [List.mem_singleton] at hc
      subst hc
      exact cls_field.1 ha
  · obtain ⟨rfl, rfl, rfl⟩ := want_lit hc (want_action (want_rule h))
    exact ⟨rfl, [], ['*'], _, _, by simp, read_star, by simpa using begins_lit (t := ['*']) (y := []), .star⟩
  · exact h.elim

theorem want_field (hc : ctx.inv = false) (h : Want E ctx (.rule .Field) fr pre s q f w)
    (hs : Stop E ctx (.rule .Field) fr pre s q) :
    f = false ∧ ∃ x y T xs, q = pre ++ x ∧ readWant w = some T ∧ T.Begins E y ∧ Path E (x ++ y) xs := by
  have hd := ask_done h.ask
  replace h := want_rule h
  rw [show grammar .Field = .action .onField1 (.label .pieces (.seq [.rule .FieldPiece, .star dotElem])) from rfl] at h
  -- the whole field
  have whole : ∀ {v1 a1 b1 g1}, Ok E ctx (.rule .FieldPiece) [] pre s v1 a1 b1 g1 →
      ∃ vs r b, Reps E ctx dotElem (pre ++ a1) b1 vs r b ∧ bytesOf (pre ++ a1 ++ r) ≤ bytesOf q := by
    intro v1 a1 b1 g1 h1
    rcases hd with ⟨v, a, b, g, hk⟩ | hn
    · have hle := hs _ _ _ _ hk
      obtain ⟨-, _, hk⟩ := ok_rule.1 hk
      rw [show grammar .Field = .action .onField1 (.label .pieces (.seq [.rule .FieldPiece, .star dotElem])) from rfl] at hk
      obtain ⟨_, hk, -⟩ := ok_action.1 hk
      obtain ⟨-, _, hk⟩ := ok_label.1 hk
      obtain ⟨_, _, _, _, k1, _, rfl, _, r, b', _, k2, _, rfl, rfl, rfl, -⟩ := ok_seq.1 hk
      obtain ⟨-, rfl, rfl, rfl⟩ := Ok.det h1 k1
      obtain ⟨-, vs, -, k2⟩ := ok_star.1 k2
      exact ⟨vs, r, _, k2, by simpa using hle⟩
    · have hn := noR.1 hn
      unfold RuleNo at hn
      rw [show grammar .Field = .action .onField1 (.label .pieces (.seq [.rule .FieldPiece, .star dotElem])) from rfl,
        no_action, no_label, no_seq] at hn
      rcases hn with hn | ⟨_, _, _, _, -, hn | ⟨_, _, _, _, -, hn⟩⟩
      · exact (Ok.clash h1 hn).elim
      · exact (no_star hn).elim
      · exact hn.elim
  replace h := want_seq (want_label (want_action h))
  rcases h with ⟨h, -⟩ | ⟨_, t, _, _, h0, ⟨h, -⟩ | ⟨_, _, _, _, -, h⟩⟩
  · have hst : Stop E ctx (.rule .FieldPiece) [] pre s q := fun v a b g hk => by
      obtain ⟨vs, r, _, -, hle⟩ := whole hk
      rw [bytes_append] at hle
      omega
    obtain ⟨hf, x, y, T, z, h1, h2, h3, h4⟩ := want_piece hc h hst
    exact ⟨hf, x, y, T, _, h1, h2, h3, .one h4⟩
  · obtain ⟨vs, r0, b0, hreps, hle⟩ := whole h0
    obtain ⟨x, -, hx⟩ := fieldPiece_of (okR.1 h0).2
    obtain ⟨r, y, hrow, h, -⟩ := want_star h
    obtain ⟨ys, hp⟩ := row_path hrow (.one hx)
    obtain ⟨vs', c, rfl, hreps2⟩ := row_prefix hrow hreps
    replace h := want_seq h
    rcases h with ⟨h, -⟩ | ⟨_, _, _, _, k, ⟨h, -⟩ | ⟨_, _, _, _, -, h⟩⟩
    · obtain ⟨rfl, rfl, rfl⟩ := want_lit hc h
      exact ⟨rfl, t ++ r, ['.', 'a'], _, _, by simp, read_point, begins_lit (t := ['.']), path_snoc hp piece_a⟩
    · have hst : Stop E ctx (.rule .FieldPiece) _ _ _ q := fun v a b g hk => by
        have h1 : Ok E ctx dotElem [] (pre ++ t ++ r) _ _ _ _ _ := ok_seq.2 ⟨_, _, _, _, k, _, rfl, _, _, _, _, hk, [], (List.append_nil _).symm, rfl, rfl, rfl, rfl⟩
        generalize hz : pre ++ t ++ r = z at hreps2 h1
        cases hreps2 with
        | nil hn => exact (Ok.clash h1 hn).elim
        | cons h2 _ =>
          obtain ⟨-, rfl, rfl, -⟩ := Ok.det h1 h2
          subst hz
          simp only [bytes_append] at hle ⊢
          omega
      obtain ⟨-, rfl, rfl, -⟩ := ok_lit1.1 k
      obtain ⟨hf, x, y, T, z, h1, h2, h3, h4⟩ := want_piece hc h hst
      exact ⟨hf, t ++ r ++ '.' :: x, y, T, _, by simpa using h1, h2, h3, by simpa using path_snoc hp h4⟩
    · exact h.elim
  · exact h.elim

/-! ### Clauses -/

theorem want_head {x : List PExpr} (hc : ctx.inv = false) (hh : TextHole E .cmp pre) (h : WantS E ctx ([.label .field (.rule .Field), .rule .ws,
      .lit [':'] false "\":\"".toList, .rule .ws] ++ x) fr pre s q f w)
    (hs : StopS E ctx ([.label .field (.rule .Field), .rule .ws, .lit [':'] false "\":\"".toList, .rule .ws] ++ x) fr pre s q)
    (hx : ∀ g p1 xs w1 w2 r, s = p1 ++ (w1 ++ (':' :: (w2 ++ r))) → Path E p1 xs → Ws w1 → Ws w2 →
      WantS E ctx x g (pre ++ p1 ++ w1 ++ [':'] ++ w2) r q f w → StopS E ctx x g (pre ++ p1 ++ w1 ++ [':'] ++ w2) r q → Good E q f w) :
    Good E q f w := by
  rcases h with ⟨h, hL⟩ | ⟨_, p1, _, _, h1, ⟨h, -⟩ | ⟨_, w1, _, _, h2, ⟨h, -⟩ | ⟨_, _, _, _, h3, ⟨h, -⟩ | ⟨_, w2, _, g, h4, h⟩⟩⟩⟩
  · have hst : Stop E ctx (.rule .Field) [] pre s q := Stop.label fun v a b g hk => lim_ws hc (hL v a b g hk).1
    obtain ⟨rfl, y, z, T, xs, rfl, h2, h3, h4⟩ := want_field hc (want_label h) hst
    have := hh.path h4 ws_nil
    exact good_of h2 h3 (by simpa using this)
  all_goals
    have hs1 := hs.tail h1
    obtain ⟨-, _, h1⟩ := ok_label.1 h1
    obtain ⟨-, h1⟩ := okR.1 h1
    obtain ⟨xs, -, hp⟩ := field_of h1
  · obtain ⟨rfl, rfl, w, hw, rfl⟩ := want_ws hc h
    have := hh.path hp (ws_snoc hw)
    exact good_ws (by simpa using this)
  all_goals
    have hs2 := hs1.tail h2
    obtain ⟨-, h2⟩ := okR.1 h2
    have hw1 := (rule_ws.1 h2).2.2.1
  · obtain ⟨rfl, rfl, rfl⟩ := want_lit hc h
    have := hh.colon hp hw1 ws_nil
    exact good_lit read_colon (by simpa using this)
  all_goals
    have hs3 := hs2.tail h3
    obtain ⟨-, rfl, rfl, -⟩ := ok_lit1.1 h3
  · obtain ⟨rfl, rfl, w, hw, rfl⟩ := want_ws hc h
    have := hh.colon hp hw1 (ws_snoc hw)
    exact good_ws (by simpa using this)
  · have hs4 := hs3.tail h4
    obtain ⟨-, h4⟩ := okR.1 h4
    have e1 := h1.split
    have e2 := h2.split
    have e4 := h4.split
    subst e4
    subst e2
    subst e1
    exact hx _ _ _ _ _ _ rfl hp hw1 (rule_ws.1 h4).2.2.1 h hs4

theorem read_exists : readWant "\"exists\"".toList = some (.lit "exists".toList false) := by decide +kernel
theorem read_null : readWant "\"null\"".toList = some (.lit "null".toList false) := by decide +kernel
theorem read_between : readWant "\"><\"".toList = some (.lit "><".toList false) := by decide +kernel
theorem read_tilde : readWant "\"~\"".toList = some (.lit "~".toList false) := by decide +kernel
theorem read_angle : readWant "[<>]".toList = some (.cls ['<', '>'] [] false false) := by decide +kernel
theorem read_equals : readWant "\"=\"".toList = some (.lit "=".toList false) := by decide +kernel
theorem read_and : readWant "\"AND\"".toList = some (.lit "AND".toList false) := by decide +kernel
theorem read_or : readWant "\"OR\"".toList = some (.lit "OR".toList false) := by decide +kernel
theorem read_not : readWant "\"NOT\"".toList = some (.lit "NOT".toList false) := by decide +kernel
theorem read_bang : readWant "\"!\"".toList = some (.lit "!".toList false) := by decide +kernel

theorem want_noArgs (hc : ctx.inv = false) (h : Want E ctx (.rule .opNoArgs) fr pre s q f w) :
    q = pre ∧ f = false ∧ ∃ t op, NoArgOp t op ∧ readWant w = some (.lit t false) := by
  rcases want_choice (want_action (want_rule h)) with h | ⟨-, -, h | ⟨-, -, h⟩⟩
  · obtain ⟨rfl, rfl, rfl⟩ := want_lit hc h
    exact ⟨rfl, rfl, _, _, .exists_, read_exists⟩
  · obtain ⟨rfl, rfl, rfl⟩ := want_lit hc h
    exact ⟨rfl, rfl, _, _, .null, read_null⟩
  · exact h.elim

theorem want_opComp (hc : ctx.inv = false) (h : Want E ctx (.rule .opComp) fr pre s q f w) :
    f = false ∧ ∃ x y T op, q = pre ++ x ∧ readWant w = some T ∧ T.Begins E y ∧ OpText (x ++ y) op := by
  rcases want_choice (want_action (want_rule h)) with h | ⟨-, -, h | ⟨-, -, h | ⟨-, -, h⟩⟩⟩
  · obtain ⟨rfl, rfl, rfl⟩ := want_lit hc h
    exact ⟨rfl, [], _, _, _, by simp, read_between, by simpa using begins_lit (t := "><".toList) (y := []), .bet⟩
  · obtain ⟨rfl, rfl, rfl⟩ := want_lit hc h
    exact ⟨rfl, [], _, _, _, by simp, read_tilde, by simpa using begins_lit (t := "~".toList) (y := []), .sim⟩
  · rcases want_seq h with ⟨h, -⟩ | ⟨_, _, _, _, k, ⟨h, -⟩ | ⟨_, _, _, _, -, h⟩⟩
    · obtain ⟨rfl, rfl, rfl⟩ := want_cls hc h
      exact ⟨rfl, [], ['<'], _, _, by simp, read_angle, cls_begins.2 ⟨'<', [], rfl, by simp [clsMatch]⟩, .lt⟩
    · obtain ⟨rfl, rfl, rfl⟩ := want_lit hc (want_opt h)
      obtain ⟨-, c, rfl, -, -, hc⟩ := ok_cls.1 k
      have hc' : c = '<' ∨ c = '>' := by simpa [clsMatch] using hc
      rcases hc' with rfl | rfl
      · exact ⟨rfl, ['<'], ['='], _, _, rfl, read_equals, by simpa using begins_lit (t := "=".toList) (y := []), .lte⟩
      · exact ⟨rfl, ['>'], ['='], _, _, rfl, read_equals, by simpa using begins_lit (t := "=".toList) (y := []), .gte⟩
    · exact h.elim
  · exact h.elim

/-- What a clause rule wants on texts up to a length is good. The rules for comparisons and negations, which are
always tried before white space, need not be considered where they match beyond the place. -/
def WantTo (E : Env) (ctx : Ctx) (L : Level) (N : Nat) : Prop := ∀ ⦃fr pre s q f w⦄, s.length ≤ N → Opens E L pre →
  (L = .cmp ∨ L = .not → Stop E ctx (.rule (ruleOf L)) fr pre s q) →
  Want E ctx (.rule (ruleOf L)) fr pre s q f w → Good E q f w

theorem TextHole.noArgs {p w1 w2 o : Str} {xs : List Str} {op : Op} (h : TextHole E .cmp pre) (hp : Path E p xs)
    (h1 : Ws w1) (h2 : Ws w2) (ho : NoArgOp o op) : Beginning E (pre ++ p ++ w1 ++ [':'] ++ w2 ++ o) := by
  have := h _ _ (.noArgs hp h1 h2 ho rfl)
  simpa using this

theorem cmp_want {N : Nat} (hc : ctx.inv = false) (ih : ∀ M < N, WantTo E ctx .or M) : WantTo E ctx .cmp N := by
  intro fr pre s q f w hN hq hs h
  have hh := hq.hole
  replace h : Want E ctx (.rule .Comparison) fr pre s q f w := h
  replace hs : Stop E ctx (.rule .Comparison) fr pre s q := hs (.inl rfl)
  replace h := want_rule h
  replace hs := hs.rule
  rw [grammar_comparison] at h hs
  replace h := want_choice h
  rcases h with h | ⟨n1, -, h | ⟨n2, -, h | ⟨-, -, h⟩⟩⟩
  · have ho : ∀ {w w2 : Str}, Ws w → Ws w2 → ∀ t n, Text E .or (pre ++ ['('] ++ w) t n → Beginning E (pre ++ ['('] ++ w ++ t ++ w2 ++ [')']) := by
      intro w w2 hw hw2 t n ht
      rw [show pre ++ ['('] ++ w = pre ++ '(' :: w by simp] at ht
      have := hh _ _ (.group hw ht hw2)
      simpa using this
    have hl : ∀ {w : Str}, Ws w → TextHole E .or (pre ++ ['('] ++ w) := by
      intro w hw t n ht
      exact (ho hw ws_nil t n ht).cut (by simp)
    replace h := want_seq (want_action h)
    rcases h with ⟨h, -⟩ | ⟨_, _, _, _, h0, ⟨h, -⟩ | ⟨_, w, _, _, h1, ⟨h, -⟩ | ⟨_, t, _, _, h2, ⟨h, -⟩ | ⟨_, r, _, _, h3, ⟨h, -⟩ |
      ⟨_, _, _, _, -, h⟩⟩⟩⟩⟩
    · obtain ⟨rfl, rfl, rfl⟩ := want_lit hc h
      have := (hl ws_nil).here .or
      exact good_lit read_open (by simpa using this)
    all_goals try exact h.elim
    all_goals obtain ⟨rfl, rfl, rfl, -⟩ := ok_lit1.1 h0
    · obtain ⟨rfl, rfl, w, hw, rfl⟩ := want_ws hc h
      have := (hl (ws_snoc hw)).here .or
      exact good_ws (by simpa using this)
    all_goals
      have hw := (rule_ws.1 (okR.1 h1).2).2.2.1
      have e := (okR.1 h1).2.split
      subst e
    · refine ih (N - 1) ?_ ?_ (by simpa using Opens.group hq hw) (by rintro (h | h) <;> cases h) (want_label h)
      · simp at hN; omega
      · simp at hN; omega
    all_goals
      obtain ⟨-, _, h2⟩ := ok_label.1 h2
      obtain ⟨n, -, ht⟩ := clause_sound (L := .or) (okR.1 h2).2
    · obtain ⟨rfl, rfl, w2, hw2, rfl⟩ := want_ws hc h
      have := ho hw (ws_snoc hw2) _ _ ht
      exact good_ws (this.cut ⟨[')'], by simp⟩)
    · obtain ⟨rfl, rfl, rfl⟩ := want_lit hc h
      exact good_lit read_close (ho hw (rule_ws.1 (okR.1 h3).2).2.2.1 _ _ ht)
  · refine want_head (x := [.label .operation (.rule .opNoArgs)]) hc hh (want_seq (want_action h)) ((hs.next n1).first.action h).seq ?_
    rintro g p1 xs w1 w2 r - hp hw1 hw2 (⟨h, -⟩ | ⟨_, _, _, _, -, h⟩) -
    · obtain ⟨rfl, rfl, o, op, ho, hr⟩ := want_noArgs hc (want_label h)
      exact good_lit hr (hh.noArgs hp hw1 hw2 ho)
    · exact h.elim
  · refine want_head (x := [.label .operation (.opt (.rule .opComp)), .rule .ws, .label .values (.rule .ValueList)]) hc hh
      (want_seq (want_action h)) (((hs.next n1).next n2).first.action h).seq ?_
    rintro g p1 xs w1 w2 r - hp hw1 hw2 (⟨h, -⟩ | ⟨_, o, _, _, h5, ⟨h, -⟩ | ⟨_, w3, _, _, h6, ⟨h, -⟩ | ⟨_, _, _, _, -, h⟩⟩⟩) hst
    · obtain ⟨rfl, x, y, T, op, rfl, h1, h2, ho⟩ := want_opComp hc (want_opt (want_label h))
      have := (hh.values hp hw1 hw2 ho ws_nil).lit.here
      exact good_of h1 h2 (by simpa using this)
    all_goals try exact h.elim
    all_goals
      have hst := hst.tail h5
      obtain ⟨-, _, h5⟩ := ok_label.1 h5
      rw [ok_opt] at h5
      obtain ⟨op, hop⟩ : ∃ op, OpText o op := by
        rcases h5.2 with ⟨_, h⟩ | h
        · obtain ⟨op, -, ho⟩ := opComp_of (okR.1 h).2
          exact ⟨op, ho⟩
        · rw [h.2.2.1]
          exact ⟨_, .eq⟩
    · obtain ⟨rfl, rfl, w3, hw3, rfl⟩ := want_ws hc h
      have := (hh.values hp hw1 hw2 hop (ws_snoc hw3)).lit.here
      exact good_ws (by simpa using this)
    · have hst := (hst.tail h6).last.label
      obtain ⟨-, h6⟩ := okR.1 h6
      have hv := ValuesDue.mk hq hp hw1 hw2 hop (rule_ws.1 h6).2.2.1
      rw [show pre ++ (p1 ++ (w1 ++ ':' :: (w2 ++ (o ++ w3)))) = pre ++ p1 ++ w1 ++ [':'] ++ w2 ++ o ++ w3 by simp] at hv
      exact want_valueList hc hv (want_label h) hst
  · exact h.elim

theorem not_want {N : Nat} (hc : ctx.inv = false) (hcmp : WantTo E ctx .cmp N) : WantTo E ctx .not N := by
  intro fr pre s q f w hN hq hs h
  have hh := hq.hole
  replace h : Want E ctx (.rule .NotClause) fr pre s q f w := h
  replace hs : Stop E ctx (.rule .NotClause) fr pre s q := hs (.inr rfl)
  replace h := want_rule h
  replace hs := hs.rule
  rw [grammar_not] at h hs
  replace h := want_choice h
  rcases h with h | ⟨n1, -, h | ⟨-, -, h⟩⟩
  · have hs := (hs.first.action h).seq
    replace h := want_seq (want_action h)
    rcases h with ⟨h, -⟩ | ⟨_, t, _, _, h0, ⟨h, -⟩ | ⟨_, w, _, _, h1, h⟩⟩
    · replace h := want_choice (want_rule h)
      rcases h with h | ⟨-, -, h | ⟨-, -, h⟩⟩
      · replace h := want_seq h
        rcases h with ⟨h, -⟩ | ⟨_, _, _, _, k, ⟨h, -⟩ | ⟨_, _, _, _, -, h⟩⟩
        · obtain ⟨rfl, rfl, rfl⟩ := want_lit hc h
          have := ((hh.notWord (.word space_one)).here .cmp).cut (r := q ++ "NOT".toList) ⟨[' '], by simp⟩
          exact good_lit read_not this
        · obtain ⟨rfl, rfl, w, hw, rfl⟩ := want_space hc h
          obtain ⟨-, rfl, -, -⟩ := ok_lit.1 k
          have := (hh.notWord (.word ⟨ws_snoc hw, by simp⟩)).here .cmp
          exact good_ws (by simpa using this)
        · exact h.elim
      · replace h := want_seq h
        rcases h with ⟨h, -⟩ | ⟨_, _, _, _, k, ⟨h, -⟩ | ⟨_, _, _, _, -, h⟩⟩
        · obtain ⟨rfl, rfl, rfl⟩ := want_lit hc h
          have := (hh.notWord (.bang ws_nil)).here .cmp
          exact good_lit read_bang (by simpa using this)
        · obtain ⟨rfl, rfl, w, hw, rfl⟩ := want_space hc (want_opt h)
          obtain ⟨-, rfl, -, -⟩ := ok_lit.1 k
          have := (hh.notWord (.bang (ws_snoc hw))).here .cmp
          exact good_ws (by simpa using this)
        · exact h.elim
      · exact h.elim
    · have hst := (hs.tail h0).last.label
      have e := (okR.1 h0).2.split
      subst e
      exact hcmp (by simp at hN; omega) (.not hq (logicalNOT_of (okR.1 h0).2)) (fun _ => hst) (want_label h)
    · exact h.elim
  · exact hcmp hN (.notCmp hq) (fun _ => (hs.next n1).first) h
  · exact h.elim

theorem bin_want {N : Nat} {L M : Level} {act : Act} {x : Rule} {kw : Rule} {f1 f2 : PLabel} {word : Str} (hc : ctx.inv = false)
    (hx : ruleOf L = x)
    (hg : grammar x = .choice [.action act (.seq [.label f1 (.rule (ruleOf M)), .rule .space,
      .rule kw, .rule .space, .label f2 (.rule x)]), .rule (ruleOf M)])
    (hw : ∀ {fr pre s q f w}, Want E ctx (.rule kw) fr pre s q f w → q = pre ∧ f = false ∧ readWant w = some (.lit word false))
    (hk : ∀ {ctx pre s v a b}, RuleOk E ctx kw pre s v a b → a = word) (hne : word ≠ [])
    (hlift : ∀ {pre}, Opens E L pre → Opens E M pre)
    (hbin : ∀ {pre a l w1 w2 b r}, Text E M pre a l → Space w1 → Space w2 → Text E L (pre ++ (a ++ (w1 ++ (word ++ w2)))) b r →
      ∃ n, Text E L pre (a ++ (w1 ++ (word ++ (w2 ++ b)))) n)
    (hopen : ∀ {pre a l w1 w2}, Opens E L pre → Text E M pre a l → Space w1 → Space w2 → Opens E L (pre ++ (a ++ (w1 ++ (word ++ w2)))))
    (hL : ¬ (L = .cmp ∨ L = .not))
    (ih : ∀ K < N, WantTo E ctx L K) (hM : WantTo E ctx M N) : WantTo E ctx L N := by
  intro fr pre s q f w hN hq _ h
  have hh := hq.hole
  rw [hx] at h
  replace h := want_rule h
  rw [hg] at h
  have hm : Opens E M pre := hlift hq
  replace h := want_choice h
  rcases h with h | ⟨-, hl, h | ⟨-, -, h⟩⟩
  · have hr : ∀ {a l w1 w2}, Text E M pre a l → Space w1 → Space w2 → TextHole E L (pre ++ a ++ w1 ++ word ++ w2) := by
      intro a l w1 w2 ha h1 h2 t n ht
      rw [show pre ++ a ++ w1 ++ word ++ w2 = pre ++ (a ++ (w1 ++ (word ++ w2))) by simp] at ht ⊢
      obtain ⟨n, hb⟩ := hbin ha h1 h2 ht
      have := hh _ _ hb
      simpa using this
    replace h := want_seq (want_action h)
    rcases h with ⟨h, hN1⟩ | ⟨_, t, _, _, h0, ⟨h, -⟩ | ⟨_, w, _, _, h1, ⟨h, -⟩ | ⟨_, o, _, _, h2, ⟨h, -⟩ | ⟨_, w2, _, _, h3, ⟨h, -⟩ |
      ⟨_, _, _, _, -, h⟩⟩⟩⟩⟩
    · exact hM hN hm (fun _ => Stop.label fun v a b g hk => lim_space hc (hN1 v a b g hk).1) (want_label h)
    all_goals try exact h.elim
    all_goals
      have e0 := h0.1
      obtain ⟨-, _, h0⟩ := ok_label.1 h0
      obtain ⟨n, -, ht⟩ := clause_sound (L := M) (okR.1 h0).2
    · obtain ⟨rfl, rfl, w, hw, rfl⟩ := want_space hc h
      refine good_ws ?_
      exact ((hr ht ⟨ws_snoc hw, by simp⟩ space_one).here L).cut ⟨word ++ [' '], by simp⟩
    all_goals
      have e1 := (okR.1 h1).2.split
      have hw1 := (rule_space.1 (okR.1 h1).2).2.2.1
    · obtain ⟨rfl, rfl, hread⟩ := hw h
      refine good_lit hread ?_
      exact (((hr ht hw1 space_one).here L).cut ⟨[' '], by simp⟩)
    all_goals
      have e2 := (okR.1 h2).2.split
      have eo := hk (okR.1 h2).2
      subst eo
    · obtain ⟨rfl, rfl, w2, hw2, rfl⟩ := want_space hc h
      refine good_ws ?_
      have := (hr ht hw1 ⟨ws_snoc hw2, by simp⟩).here L
      simpa using this
    · have e3 := (okR.1 h3).2.split
      subst e3
      subst e2
      subst e1
      subst e0
      have hl : o.length ≠ 0 := fun h => hne (List.length_eq_zero_iff.1 h)
      rw [← hx] at h
      refine ih (N - 1) ?_ ?_ (by simpa using hopen hq ht hw1 (rule_space.1 (okR.1 h3).2).2.2.1) (fun h => (hL h).elim) (want_label h)
      · simp at hN; omega
      · simp at hN; omega
  · exact hM hN hm (fun _ v a b g hk => lim_space hc ((lim_seq (lim_action hl)).2 _ a b _ (ok_label.2 ⟨rfl, _, hk⟩)).1) h
  · exact h.elim

theorem want_to (hc : ctx.inv = false) (N : Nat) : ∀ L, WantTo E ctx L N := by
  induction N using Nat.strong_induction_on with
  | _ N ih =>
    have h1 : WantTo E ctx .cmp N := cmp_want hc fun M hM => ih M hM .or
    have hn := not_want hc h1
    have ha : WantTo E ctx .and N := bin_want (x := .AndClause) (M := .not) hc rfl grammar_and
      (fun h => by obtain ⟨rfl, rfl, rfl⟩ := want_lit hc (want_rule h); exact ⟨rfl, rfl, read_and⟩)
      (fun h => (logicalAND_iff.1 h).1) (by simp) .andNot (fun h1 h2 h3 h4 => ⟨_, .and h1 h2 h3 h4⟩) .and (by simp) (fun M hM => ih M hM .and) hn
    have ho : WantTo E ctx .or N := bin_want (x := .OrClause) (M := .and) hc rfl grammar_or
      (fun h => by obtain ⟨rfl, rfl, rfl⟩ := want_lit hc (want_rule h); exact ⟨rfl, rfl, read_or⟩)
      (fun h => (logicalOR_iff.1 h).1) (by simp) .orAnd (fun h1 h2 h3 h4 => ⟨_, .or h1 h2 h3 h4⟩) .or (by simp) (fun M hM => ih M hM .or) ha
    intro L
    cases L <;> assumption

/-- All that a run without errors over a whole text wants at its furthest place is good. -/
theorem want_start (hc : ctx.inv = false) (h : Want E ctx (grammar .Start) fr [] s q f w) : Good E q f w := by
  have hl : ∀ {w w2 : Str}, Ws w → Ws w2 → ∀ t n, Text E .or w t n → Query E (w ++ t ++ w2) n :=
    fun hw hw2 t n ht => ⟨_, t, _, hw, hw2, ht, by simp⟩
  have hh : ∀ {w : Str}, Ws w → TextHole E .or w := by
    intro w hw t n ht
    exact ⟨[], n, by simpa using hl hw ws_nil t n ht⟩
  rw [show grammar .Start = .action .onStart1 (.seq [.label .query (.rule .Query), .rule .EOF]) from rfl] at h
  replace h := want_seq (want_action h)
  rcases h with ⟨h, -⟩ | ⟨_, t, _, _, h0, ⟨h, -⟩ | ⟨_, w, _, _, -, h⟩⟩
  · replace h := want_rule (want_label h)
    rw [show grammar .Query = .action .onQuery1 (.seq [.rule .ws, .label .clause (.rule .OrClause), .rule .ws]) from rfl] at h
    replace h := want_seq (want_action h)
    rcases h with ⟨h, -⟩ | ⟨_, t, _, _, h1, ⟨h, -⟩ | ⟨_, w, _, _, h2, ⟨h, -⟩ | ⟨_, w, _, _, -, h⟩⟩⟩
    · obtain ⟨rfl, rfl, w, hw, rfl⟩ := want_ws hc h
      have := (hh (ws_snoc hw)).here .or
      exact good_ws (by simpa using this)
    · exact want_to hc _ .or (Nat.le_refl _) (.start (rule_ws.1 (okR.1 h1).2).2.2.1) (by rintro (h | h) <;> cases h) (want_label h)
    · have hw := (rule_ws.1 (okR.1 h1).2).2.2.1
      obtain ⟨-, _, h2⟩ := ok_label.1 h2
      obtain ⟨n, -, ht⟩ := clause_sound (L := .or) (okR.1 h2).2
      obtain ⟨rfl, rfl, w2, hw2, rfl⟩ := want_ws hc h
      have := hl hw (ws_snoc hw2) _ _ ht
      exact good_ws ⟨[], n, by simpa using this⟩
    · exact h.elim
  · obtain ⟨rfl, rfl, rfl⟩ := want_any (by change (!ctx.inv) = true; rw [hc]; rfl) (want_not (want_rule h))
    obtain ⟨-, _, h0⟩ := ok_label.1 h0
    obtain ⟨-, _, h0⟩ := okR.1 h0
    rw [show grammar .Query = .action .onQuery1 (.seq [.rule .ws, .label .clause (.rule .OrClause), .rule .ws]) from rfl,
      ok_action] at h0
    obtain ⟨_, h0, -⟩ := h0
    simp only [ok_seq, OkS, ok_label, okR] at h0
    obtain ⟨_, w, _, _, ⟨rfl, h1⟩, _, rfl, _, t, _, _, ⟨rfl, _, rfl, h2⟩, _, rfl, _, w2, _, _, ⟨rfl, h3⟩, _, rfl, rfl, -⟩ := h0
    obtain ⟨n, -, ht⟩ := clause_sound (L := .or) h2
    exact .inr (.inl ⟨rfl, rfl, n, by simpa using hl (rule_ws.1 h1).2.2.1 (rule_ws.1 h3).2.2.1 _ _ ht⟩)
  · exact h.elim

end Aql
