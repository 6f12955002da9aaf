import Verif.Proofs.AskClause
import Verif.Proofs.Expected
/-!
The first error recorded while a query is read marks a place up to which the text can be completed.
-/

namespace Aql

open Spec

variable {E : Env} {ctx : Ctx} {fr fr' : VFrame} {pre s a b q : Str} {v : PV} {p : Loc} {k : RecErr}

/-- Any string would do here. -/
def StringHole (E : Env) (pre : Str) : Prop := ∀ t x, StrBody t x → Beginning E (pre ++ '"' :: (t ++ ['"']))

/-- Something can be said about the text before the error. -/
def Sited (E : Env) (x r : Str) (k : RecErr) : Prop :=
  (∀ t, k.kind = .unknownValue t → LitHole E x ∧ ∃ z, r = t ++ z) ∧ (StringHole E x ∨
    (∃ q t, x = q ++ '"' :: t ∧ StringHole E q ∧ Spelling E t) ∨
    ∃ q t, x = q ++ '/' :: t ∧ LitHole E q ∧ RegexBody t)

/-- The error marks a place of the text. -/
def Site (E : Env) (pre s : Str) (p : Loc) (k : RecErr) : Prop :=
  ∃ x r, pre ++ s = x ++ r ∧ p = locAt x r ∧ Sited E x r k

theorem Site.here (h : Sited E pre s k) : Site E pre s (locAt pre s) k := ⟨pre, s, rfl, rfl, h⟩

theorem Site.after (h : Site E (pre ++ a) b p k) : Site E pre (a ++ b) p k := by
  obtain ⟨x, r, h1, h2⟩ := h
  exact ⟨x, r, by rw [← h1, List.append_assoc], h2⟩

theorem LitHole.string (h : LitHole E pre) : StringHole E pre := fun _ _ hx => h _ _ (.string hx rfl)

/-- An unknown value is the text of the action. -/
theorem act_unknown {act : Act} {g : VFrame} {u t : Str} {l : Loc} (hr : runAct E act g u l = .ok (v, some k))
    (hk : k.kind = .unknownValue t) : t = u := by
  cases act
  all_goals
    simp only [runAct, tokResult, bind, Except.bind, pure, Except.pure] at hr
    repeat' (split at hr)
    all_goals (try cases hr)
    all_goals (try cases hk)
    all_goals (try rfl)

/-- The error of an action where any literal would do. -/
theorem Site.act {act : Act} {e : PExpr} {g : VFrame} {v' : PV} (hh : LitHole E pre) (h : Ok E ctx e fr pre s v a b fr')
    (hr : runAct E act g a (locAt pre s) = .ok (v', some k)) : Site E pre s (locAt pre s) k :=
  .here ⟨fun _ ht => ⟨hh, b, by rw [act_unknown hr ht]; exact h.1⟩, .inl hh.string⟩

/-! ### Values -/

theorem site_quoted (hh : StringHole E pre) (h : Er E ctx (.rule .QuotedValue) fr pre s p k) : Site E pre s p k := by
  replace h := er_rule h
  rw [grammar_quoted] at h
  replace h := er_recover h
  have hc : ({ ctx with recov := (.errUntermStr, .rule .ErrUntermStr) :: ctx.recov } : Ctx).recov =
    (.errUntermStr, .rule .ErrUntermStr) :: ctx.recov := rfl
  generalize ({ ctx with recov := (.errUntermStr, .rule .ErrUntermStr) :: ctx.recov } : Ctx) = cx at h hc
  replace h := er_action h
  rcases h with h | ⟨_, _, _, _, _, h, hr, hp⟩
  · rcases er_seq h with h | ⟨_, _, _, _, h0, h2⟩
    · exact (er_lit h).elim
    · obtain ⟨rfl, rfl, rfl, rfl⟩ := ok_lit1.1 h0
      rcases h2 with h2 | ⟨_, t, post, _, h1, h2 | ⟨_, _, _, _, -, h2⟩⟩
      · obtain ⟨_, _, -, h⟩ := er_star h2
        exact (silent_er silent_quotedElem h).elim
      · obtain ⟨rfl, _, rfl, hk⟩ := ok_star.1 h1
        have e := hk.split
        subst e
        rcases er_choice (er_rule h2) with h | ⟨hno, h3 | ⟨-, h⟩⟩
        · exact (er_lit h).elim
        · obtain ⟨rfl, rfl⟩ := er_throw rfl hc h3
          refine ⟨pre ++ '"' :: t, post, by simp, by simp, ⟨(by intro t h; cases h), .inr (.inl ⟨pre, t, rfl, hh, reps_spelling hk⟩)⟩⟩
        · exact h.elim
      · exact h2.elim
  · obtain ⟨-, rfl⟩ := tokResult_err hr
    subst hp
    exact .here ⟨(by intro t h; cases h), .inl hh⟩

theorem site_regex (hh : LitHole E pre) (h : Er E ctx (.rule .RegexValue) fr pre s p k) : Site E pre s p k := by
  replace h := er_recover (er_rule h)
  have hc : ({ ctx with recov := (.errUntermRegex, .rule .ErrUntermRegex) :: ctx.recov } : Ctx).recov =
    (.errUntermRegex, .rule .ErrUntermRegex) :: ctx.recov := rfl
  generalize ({ ctx with recov := (.errUntermRegex, .rule .ErrUntermRegex) :: ctx.recov } : Ctx) = cx at h hc
  replace h := er_action h
  rcases h with h | ⟨_, _, _, _, _, h, hr, hp⟩
  · rcases er_seq h with h | ⟨_, _, _, _, h0, h2⟩
    · exact (er_lit h).elim
    · obtain ⟨rfl, rfl, rfl, rfl⟩ := ok_lit1.1 h0
      rcases h2 with h2 | ⟨_, t, post, _, h1, h2 | ⟨_, _, _, _, -, h2⟩⟩
      · obtain ⟨_, _, -, h⟩ := er_star h2
        exact (silent_er silent_regexChar h).elim
      · obtain ⟨rfl, _, rfl, hk⟩ := ok_star.1 h1
        have e := hk.split
        subst e
        rcases er_choice (er_rule h2) with h | ⟨hno, h3 | ⟨-, h⟩⟩
        · exact (er_lit h).elim
        · obtain ⟨rfl, rfl⟩ := er_throw rfl hc h3
          refine ⟨pre ++ '/' :: t, post, by simp, by simp, ⟨(by intro t h; cases h), .inr (.inr ⟨pre, t, rfl, hh, regex_body hk⟩)⟩⟩
        · exact h.elim
      · exact h2.elim
  · subst hp
    exact .act hh h hr

/-- An action over something without errors marks its beginning. -/
theorem site_silent {act : Act} {e : PExpr} (hs : Silent E e) (hh : LitHole E pre) (h : Er E ctx (.action act e) fr pre s p k) :
    Site E pre s p k := by
  replace h := er_action h
  rcases h with h | ⟨_, _, _, _, _, h, hr, rfl⟩
  · exact (silent_er hs h).elim
  · exact .act hh h hr

theorem site_bare (hh : LitHole E pre) (h : Er E ctx (.rule .BareValue) fr pre s p k) : Site E pre s p k := by
  replace h := er_choice (er_rule h)
  rcases h with h | ⟨-, h | ⟨-, h | ⟨-, h | ⟨-, h | ⟨-, h⟩⟩⟩⟩⟩
  · exact site_silent (by silent) hh (er_rule h)
  · exact site_silent (by silent) hh (er_rule h)
  · exact site_silent silent_float hh (er_rule h)
  · exact site_silent silent_int hh (er_rule h)
  · exact (er_bool h).elim
  · exact h.elim

theorem site_value (hh : LitHole E pre) (h : Er E ctx (.rule .Value) fr pre s p k) : Site E pre s p k := by
  replace h := er_choice (er_rule h)
  rcases h with h | ⟨hno, h | ⟨-, h⟩⟩
  · replace h := er_action h
    rcases h with h | ⟨_, u, post, g, _, h, hr, rfl⟩
    · replace h := er_choice (er_label h)
      rcases h with h | ⟨-, h | ⟨-, h | ⟨-, h⟩⟩⟩
      · exact site_quoted hh.string h
      · exact site_regex hh h
      · exact site_bare hh h
      · exact h.elim
    · exact .act hh h hr
  · replace h := er_action h
    rcases h with h | ⟨_, u, post, _, _, h, hr, rfl⟩
    · exact (silent_er (E := E) (by silent) h).elim
    · exact .act hh h hr
  · exact h.elim

/-! ### Value lists -/

theorem site_valueList (hv : ValuesHole E pre) (h : Er E ctx (.rule .ValueList) fr pre s p k) : Site E pre s p k := by
  replace h := er_rule h
  rw [show grammar .ValueList = .choice [.action .onValueList2
        (.seq [.lit ['('] false "\"(\"".toList, .rule .ws, .label .first (.rule .Value),
          .label .rest (.star listElem), .rule .ws, .lit [')'] false "\")\"".toList]),
      .action .onValueList17 (.label .value (.rule .Value))] from rfl] at h
  replace h := er_choice h
  rcases h with h | ⟨-, h | ⟨-, h⟩⟩
  · replace h := er_action h
    rcases h with h | ⟨_, u, post, g, _, h, hr, rfl⟩
    · replace h := er_seq h
      rcases h with h | ⟨_, _, _, _, h0, h | ⟨_, w, _, _, h1, h | ⟨_, t, _, _, h2, h | ⟨_, r, _, _, -, h | ⟨_, _, _, _, -,
        h | ⟨_, _, _, _, -, h⟩⟩⟩⟩⟩⟩
      · exact (er_lit h).elim
      · exact (silent_er silent_ws h).elim
      · obtain ⟨rfl, rfl, rfl, -⟩ := ok_lit1.1 h0
        obtain ⟨-, h1⟩ := okR.1 h1
        have e1 := h1.split
        subst e1
        have hl := hv.first (rule_ws.1 h1).2.2.1
        rw [show pre ++ '(' :: w = pre ++ ['('] ++ w by simp] at hl
        exact Site.after (a := ['(']) (Site.after (site_value hl (er_label h)))
      · obtain ⟨rfl, rfl, rfl, -⟩ := ok_lit1.1 h0
        obtain ⟨-, h1⟩ := okR.1 h1
        have e1 := h1.split
        subst e1
        obtain ⟨-, _, h2⟩ := ok_label.1 h2
        obtain ⟨-, h2⟩ := okR.1 h2
        have e2 := h2.split
        subst e2
        obtain ⟨x, -, hx⟩ := value_lit h2
        replace h := er_star (er_label h)
        obtain ⟨r, y, hrow, h⟩ := h
        have e3 := hrow.split
        subst e3
        obtain ⟨xs, hit⟩ := row_items hrow rfl hx
        rw [show pre ++ ['('] ++ w = pre ++ '(' :: w by simp] at hit
        replace h := er_seq h
        refine Site.after (a := ['(']) (Site.after (Site.after (Site.after ?_)))
        rcases h with h | ⟨_, w1, _, _, k1, h | ⟨_, _, _, _, k2, h | ⟨_, w2, _, _, k3, h | ⟨_, _, _, _, -, h⟩⟩⟩⟩
        · exact (silent_er silent_ws h).elim
        · exact (er_lit h).elim
        · exact (silent_er silent_ws h).elim
        · obtain ⟨-, k1⟩ := okR.1 k1
          obtain ⟨-, rfl, rfl, -⟩ := ok_lit1.1 k2
          obtain ⟨-, k3⟩ := okR.1 k3
          have f1 := k1.split
          subst f1
          have f3 := k3.split
          subst f3
          have hl := hv.item (rule_ws.1 h1).2.2.1 hit (rule_ws.1 k1).2.2.1 (rule_ws.1 k3).2.2.1
          rw [show pre ++ '(' :: w ++ (t ++ r ++ (w1 ++ ',' :: w2)) = pre ++ ['('] ++ w ++ t ++ r ++ w1 ++ [','] ++ w2 by simp] at hl
          exact Site.after (Site.after (a := [',']) (Site.after (site_value hl h)))
        · exact h.elim
      · exact (silent_er silent_ws h).elim
      · exact (er_lit h).elim
      · exact h.elim
    · exact .act hv.lit h hr
  · replace h := er_action h
    rcases h with h | ⟨_, u, post, g, _, h, hr, rfl⟩
    · exact site_value hv.lit (er_label h)
    · exact .act hv.lit h hr
  · exact h.elim

/-! ### Fields -/

/-- Any segment would do here. -/
def PieceHole (E : Env) (pre : Str) : Prop := ∀ t x, Piece E t x → Beginning E (pre ++ t)

theorem PieceHole.string (h : PieceHole E pre) : StringHole E pre := fun _ _ hx => h _ _ (.quoted hx)

theorem site_piece (hh : PieceHole E pre) (h : Er E ctx (.rule .FieldPiece) fr pre s p k) : Site E pre s p k := by
  replace h := er_rule h
  rw [show grammar .FieldPiece = .choice [.rule .QuotedFieldPiece, .rule .UnquotedFieldPiece, .rule .Star] from rfl] at h
  replace h := er_choice h
  rcases h with h | ⟨-, h | ⟨-, h | ⟨-, h⟩⟩⟩
  · replace h := er_rule h
    rw [show grammar .QuotedFieldPiece = .action .onQuotedFieldPiece1 (.label .qv (.rule .QuotedValue)) from rfl] at h
    replace h := er_action h
    rcases h with h | ⟨_, u, post, g, _, h, hr, hp⟩
    · exact site_quoted hh.string (er_label h)
    · exfalso
      simp only [runAct, bind, Except.bind, pure, Except.pure] at hr
      split at hr
      · cases hr
      · simp at hr
  · exact (silent_er (E := E) (by silent) h).elim
  · exact (silent_er (E := E) (by silent) h).elim
  · exact h.elim

theorem site_field (hh : ∀ t xs, Path E t xs → Beginning E (pre ++ t)) (h : Er E ctx (.rule .Field) fr pre s p k) :
    Site E pre s p k := by
  replace h := er_rule h
  rw [show grammar .Field = .action .onField1 (.label .pieces (.seq [.rule .FieldPiece, .star dotElem])) from rfl] at h
  replace h := er_action h
  rcases h with h | ⟨_, u, post, g, _, h, hr, hp⟩
  · replace h := er_seq (er_label h)
    rcases h with h | ⟨_, t, _, _, h0, h | ⟨_, _, _, _, -, h⟩⟩
    · exact site_piece (fun t x hx => hh _ _ (.one hx)) h
    · have e := (okR.1 h0).2.split
      subst e
      obtain ⟨x, -, hx⟩ := fieldPiece_of (okR.1 h0).2
      replace h := er_star h
      obtain ⟨r, y, hrow, h⟩ := h
      have e3 := hrow.split
      subst e3
      obtain ⟨ys, hp⟩ := row_path hrow (.one hx)
      replace h := er_seq h
      rcases h with h | ⟨_, _, _, _, k, h | ⟨_, _, _, _, -, h⟩⟩
      · exact (er_lit h).elim
      · obtain ⟨-, rfl, rfl, -⟩ := ok_lit1.1 k
        refine Site.after (Site.after (Site.after (a := ['.']) (site_piece (fun u z hz => ?_) h)))
        simpa using hh _ _ (path_snoc hp hz)
      · exact h.elim
    · exact h.elim
  · exfalso
    simp only [ok_label, ok_seq, OkS] at h
    obtain ⟨rfl, _, v1, _, _, _, -, _, rfl, v2, _, _, _, -, _, rfl, -, -, rfl, -⟩ := h
    simp only [runAct, VFrame.get, PV.toAny, bind, Except.bind, pure, Except.pure] at hr
    repeat' (split at hr)
    all_goals (try cases hr)
    all_goals (try simp_all)

/-! ### Clauses -/

/-- Errors of a clause rule on texts up to a length are placed well. -/
def SiteTo (E : Env) (ctx : Ctx) (L : Level) (N : Nat) : Prop := ∀ ⦃fr pre s p k⦄, s.length ≤ N → TextHole E L pre →
  Er E ctx (.rule (ruleOf L)) fr pre s p k → Site E pre s p k

theorem site_head {x : List PExpr} (hh : TextHole E .cmp pre) (h : ErS E ctx ([.label .field (.rule .Field), .rule .ws,
      .lit [':'] false "\":\"".toList, .rule .ws] ++ x) fr pre s p k)
    (hx : ∀ g p1 xs w1 w2 r, s = p1 ++ (w1 ++ (':' :: (w2 ++ r))) → Path E p1 xs → Ws w1 → Ws w2 →
      ErS E ctx x g (pre ++ p1 ++ w1 ++ [':'] ++ w2) r p k → Site E (pre ++ p1 ++ w1 ++ [':'] ++ w2) r p k) :
    Site E pre s p k := by
  rcases h with h | ⟨_, p1, _, _, h1, h | ⟨_, w1, _, _, h2, h | ⟨_, _, _, _, h3, h | ⟨_, w2, _, g, h4, h⟩⟩⟩⟩
  · exact site_field (fun t xs ht => by simpa using hh.path ht ws_nil) (er_label h)
  · exact (silent_er silent_ws h).elim
  · exact (er_lit h).elim
  · exact (silent_er silent_ws h).elim
  · obtain ⟨-, _, h1⟩ := ok_label.1 h1
    obtain ⟨-, h1⟩ := okR.1 h1
    obtain ⟨-, h2⟩ := okR.1 h2
    obtain ⟨-, rfl, rfl, -⟩ := ok_lit1.1 h3
    obtain ⟨-, h4⟩ := okR.1 h4
    have e1 := h1.split
    have e2 := h2.split
    have e4 := h4.split
    subst e4
    subst e2
    subst e1
    obtain ⟨xs, -, hp⟩ := field_of h1
    exact Site.after (Site.after (Site.after (a := [':']) (Site.after (hx _ _ _ _ _ _ rfl hp (rule_ws.1 h2).2.2.1
      (rule_ws.1 h4).2.2.1 h))))

theorem cmp_site {N : Nat} (ih : ∀ M < N, SiteTo E ctx .or M) : SiteTo E ctx .cmp N := by
  intro fr pre s p k hN hh h
  replace h : Er E ctx (.rule .Comparison) fr pre s p k := h
  replace h := er_rule h
  rw [grammar_comparison] at h
  replace h := er_choice h
  rcases h with h | ⟨-, h | ⟨-, h | ⟨-, h⟩⟩⟩
  · replace h := er_seq (er_act (by simp) h)
    rcases h with h | ⟨_, _, _, _, h0, h | ⟨_, w, _, _, h1, h | ⟨_, t, _, _, -, h | ⟨_, r, _, _, -, h | ⟨_, _, _, _, -, h⟩⟩⟩⟩⟩
    · exact (er_lit h).elim
    · exact (silent_er silent_ws h).elim
    · obtain ⟨rfl, rfl, rfl, -⟩ := ok_lit1.1 h0
      have e := (okR.1 h1).2.split
      subst e
      have hw := (rule_ws.1 (okR.1 h1).2).2.2.1
      have ho : TextHole E .or (pre ++ ['('] ++ w) := by
        intro t n ht
        rw [show pre ++ ['('] ++ w = pre ++ '(' :: w by simp] at ht
        exact (hh _ _ (.group hw ht ws_nil)).cut ⟨[')'], by simp⟩
      refine Site.after (a := ['(']) (Site.after (ih (N - 1) ?_ ?_ ho (er_label h)))
      · simp at hN; omega
      · simp at hN; omega
    · exact (silent_er silent_ws h).elim
    · exact (er_lit h).elim
    · exact h.elim
  · refine site_head (x := [.label .operation (.rule .opNoArgs)]) hh (er_seq (er_act (by simp) h)) ?_
    rintro g p1 xs w1 w2 r - - - - (h | ⟨_, _, _, _, -, h⟩)
    · exact (silent_er silent_opNoArgs (er_label h)).elim
    · exact h.elim
  · refine site_head (x := [.label .operation (.opt (.rule .opComp)), .rule .ws, .label .values (.rule .ValueList)]) hh
      (er_seq (er_act (by simp) h)) ?_
    rintro g p1 xs w1 w2 r - hp hw1 hw2 (h | ⟨_, o, _, _, h5, h | ⟨_, w3, _, _, h6, h | ⟨_, _, _, _, -, h⟩⟩⟩)
    · exact (silent_er silent_opComp (er_opt (er_label h))).elim
    · exact (silent_er silent_ws h).elim
    · obtain ⟨-, _, h5⟩ := ok_label.1 h5
      have e5 := h5.1
      subst e5
      rw [ok_opt] at h5
      obtain ⟨-, h6⟩ := okR.1 h6
      have e6 := h6.split
      subst e6
      obtain ⟨op, hop⟩ : ∃ op, OpText o op := by
        rcases h5.2 with ⟨_, h⟩ | h
        · obtain ⟨op, -, ho⟩ := opComp_of (okR.1 h).2
          exact ⟨op, ho⟩
        · rw [h.2.2.1]
          exact ⟨_, .eq⟩
      have hv := hh.values hp hw1 hw2 hop (rule_ws.1 h6).2.2.1
      rw [show pre ++ (p1 ++ (w1 ++ ':' :: (w2 ++ (o ++ w3)))) = pre ++ p1 ++ w1 ++ [':'] ++ w2 ++ o ++ w3 by simp] at hv
      exact Site.after (Site.after (site_valueList hv (er_label h)))
    · exact h.elim
  · exact h.elim

theorem not_site {N : Nat} (hc : SiteTo E ctx .cmp N) : SiteTo E ctx .not N := by
  intro fr pre s p k hN hh h
  replace h : Er E ctx (.rule .NotClause) fr pre s p k := h
  replace h := er_rule h
  rw [grammar_not] at h
  replace h := er_choice h
  rcases h with h | ⟨-, h | ⟨-, h⟩⟩
  · replace h := er_seq (er_act (by simp) h)
    rcases h with h | ⟨_, t, _, _, h0, h | ⟨_, w, _, _, h1, h⟩⟩
    · exact (silent_er silent_not h).elim
    · have e := (okR.1 h0).2.split
      subst e
      exact Site.after (hc (by simp at hN; omega) (hh.notWord (logicalNOT_of (okR.1 h0).2)) (er_label h))
    · exact h.elim
  · exact hc hN (fun t n ht => hh t n (.notCmp ht)) h
  · exact h.elim

theorem bin_site {N : Nat} {L M : Level} {act : Act} {x : Rule} {kw : Rule} {f1 f2 : PLabel} {word : Str} (hx : ruleOf L = x)
    (hg : grammar x = .choice [.action act (.seq [.label f1 (.rule (ruleOf M)), .rule .space,
      .rule kw, .rule .space, .label f2 (.rule x)]), .rule (ruleOf M)])
    (ha : act ∈ [Act.onStart1, .onQuery1, .onOrClause2, .onAndClause2, .onNotClause2,
      .onComparison2, .onComparison10, .onComparison19])
    (hq : Silent E (.rule kw)) (hk : ∀ {ctx pre s v a b}, RuleOk E ctx kw pre s v a b → a = word) (hne : word ≠ [])
    (hlift : ∀ {pre t n}, Text E M pre t n → Text E L pre t n)
    (hbin : ∀ {pre a l w1 w2 b r}, Text E M pre a l → Space w1 → Space w2 → Text E L (pre ++ (a ++ (w1 ++ (word ++ w2)))) b r →
      ∃ n, Text E L pre (a ++ (w1 ++ (word ++ (w2 ++ b)))) n)
    (ih : ∀ K < N, SiteTo E ctx L K) (hc : SiteTo E ctx M N) : SiteTo E ctx L N := by
  intro fr pre s p k hN hh h
  rw [hx] at h
  replace h := er_rule h
  rw [hg] at h
  have hm : TextHole E M pre := fun t n ht => hh t n (hlift ht)
  replace h := er_choice h
  rcases h with h | ⟨-, h | ⟨-, h⟩⟩
  · replace h := er_seq (er_act ha h)
    rcases h with h | ⟨_, t, _, _, h0, h | ⟨_, w, _, _, h1, h | ⟨_, o, _, _, h2, h | ⟨_, w2, _, _, h3, h | ⟨_, _, _, _, -, h⟩⟩⟩⟩⟩
    · exact hc hN hm (er_label h)
    · exact (silent_er silent_space h).elim
    · exact (silent_er hq h).elim
    · exact (silent_er silent_space h).elim
    · have e0 := h0.1
      obtain ⟨-, _, h0⟩ := ok_label.1 h0
      obtain ⟨n, -, ht⟩ := clause_sound (L := M) (okR.1 h0).2
      have e1 := (okR.1 h1).2.split
      have hw1 := (rule_space.1 (okR.1 h1).2).2.2.1
      have e2 := (okR.1 h2).2.split
      have eo := hk (okR.1 h2).2
      have e3 := (okR.1 h3).2.split
      have hw2 := (rule_space.1 (okR.1 h3).2).2.2.1
      subst eo
      subst e3
      subst e2
      subst e1
      subst e0
      have hl : o.length ≠ 0 := fun h => hne (List.length_eq_zero_iff.1 h)
      have hr : TextHole E L (pre ++ t ++ w ++ o ++ w2) := by
        intro t2 n2 ht2
        rw [show pre ++ t ++ w ++ o ++ w2 = pre ++ (t ++ (w ++ (o ++ w2))) by simp] at ht2 ⊢
        obtain ⟨n, hb⟩ := hbin ht hw1 hw2 ht2
        have := hh _ _ hb
        simpa using this
      rw [← hx] at h
      refine Site.after (Site.after (Site.after (Site.after (ih (N - 1) ?_ ?_ hr (er_label h)))))
      · simp at hN; omega
      · simp at hN; omega
    · exact h.elim
  · exact hc hN hm h
  · exact h.elim

theorem site_to (N : Nat) : ∀ L, SiteTo E ctx L N := by
  induction N using Nat.strong_induction_on with
  | _ N ih =>
    have hc : SiteTo E ctx .cmp N := cmp_site fun M hM => ih M hM .or
    have hn := not_site hc
    have ha : SiteTo E ctx .and N := bin_site (x := .AndClause) (M := .not) rfl grammar_and (by simp) silent_and
      (fun h => (logicalAND_iff.1 h).1) (by simp) .andNot (fun h1 h2 h3 h4 => ⟨_, .and h1 h2 h3 h4⟩) (fun M hM => ih M hM .and) hn
    have ho : SiteTo E ctx .or N := bin_site (x := .OrClause) (M := .and) rfl grammar_or (by simp) silent_or
      (fun h => (logicalOR_iff.1 h).1) (by simp) .orAnd (fun h1 h2 h3 h4 => ⟨_, .or h1 h2 h3 h4⟩) (fun M hM => ih M hM .or) ha
    intro L
    cases L <;> assumption

/-- The first error recorded while a text is read is placed well. -/
theorem site_start (h : Er E ctx (.rule .Start) fr [] s p k) : Site E [] s p k := by
  replace h := er_rule h
  rw [show grammar .Start = .action .onStart1 (.seq [.label .query (.rule .Query), .rule .EOF]) from rfl] at h
  replace h := er_seq (er_act (by simp) h)
  rcases h with h | ⟨_, t, _, _, -, h | ⟨_, w, _, _, -, h⟩⟩
  · replace h := er_rule (er_label h)
    rw [show grammar .Query = .action .onQuery1 (.seq [.rule .ws, .label .clause (.rule .OrClause), .rule .ws]) from rfl] at h
    replace h := er_seq (er_act (by simp) h)
    rcases h with h | ⟨_, t, _, _, h1, h | ⟨_, w, _, _, -, h | ⟨_, w, _, _, -, h⟩⟩⟩
    · exact (silent_er silent_ws h).elim
    · have e := (okR.1 h1).2.split
      subst e
      have hw := (rule_ws.1 (okR.1 h1).2).2.2.1
      refine Site.after (site_to _ .or (Nat.le_refl _) ?_ (er_label h))
      intro u n hu
      exact ⟨[], n, t, u, [], hw, ws_nil, hu, by simp⟩
    · exact (silent_er silent_ws h).elim
    · exact h.elim
  · exact (silent_er silent_eof h).elim
  · exact h.elim

end Aql
