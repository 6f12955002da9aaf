import Verif.Proofs.ErrorValue
/-!
The first error recorded while a query is read is true of the text it marks.
-/

namespace Aql

open Spec

variable {E : Env} {ctx : Ctx} {fr fr' : VFrame} {pre s a b : Str} {v : PV} {p : Loc} {k : RecErr}

/-! ### Values -/

theorem er_bool (h : Er E ctx (.rule .BoolValue) fr pre s p k) : False := by
  replace h := er_action (er_rule h)
  rcases h with h | ⟨_, u, post, _, _, h, hr, hp⟩
  · refine silent_er (E := E) ?_ h
    silent
  · simp only [ok_choice, OkC, ok_lit] at h
    obtain ⟨-, ⟨_, -, rfl, -⟩ | ⟨-, ⟨_, -, rfl, -⟩ | h⟩⟩ := h
    · simp +decide [runAct, newBoolVal, parseBoolLower] at hr
    · simp +decide [runAct, newBoolVal, parseBoolLower] at hr
    · exact h.2.elim

theorem er_bare (hv : ValuePlace E pre) (h : Er E ctx (.rule .BareValue) fr pre s p k) : Fault E pre s p k := by
  replace h := er_choice (er_rule h)
  rcases h with h | ⟨-, h | ⟨-, h | ⟨-, h | ⟨-, h | ⟨-, h⟩⟩⟩⟩⟩
  · exact er_time hv h
  · exact er_ip hv h
  · exact er_float hv h
  · exact er_int hv h
  · exact (er_bool h).elim
  · exact h.elim

theorem quoted_head (h : No E ctx (.rule .QuotedValue) fr pre s) : NoHead (· = '"') s := by
  intro c t hs hc
  subst hs hc
  have h := noR.1 h
  unfold RuleNo at h
  rw [grammar_quoted, no_recover, no_action] at h
  have hc : ({ ctx with recov := (.errUntermStr, .rule .ErrUntermStr) :: ctx.recov } : Ctx).recov =
    (.errUntermStr, .rule .ErrUntermStr) :: ctx.recov := rfl
  generalize ({ ctx with recov := (.errUntermStr, .rule .ErrUntermStr) :: ctx.recov } : Ctx) = cx at h hc
  simp only [no_seq, NoS, no_lit1] at h
  rcases h with h | ⟨_, _, _, _, -, h | ⟨_, _, _, _, -, h | ⟨_, _, _, _, -, h⟩⟩⟩
  · simp at h
  · exact no_star h
  · have h := noR.1 h
    unfold RuleNo at h
    simp only [grammar, no_choice, NoC] at h
    exact no_throw ⟨_, rfl⟩ hc h.2.1
  · exact h

theorem regex_head (h : No E ctx (.rule .RegexValue) fr pre s) : NoHead (· = '/') s := by
  intro c t hs hc
  subst hs hc
  have h := noR.1 h
  unfold RuleNo at h
  rw [show grammar .RegexValue = .recover .errUntermRegex (.action .onRegexValue2
        (.seq [.lit ['/'] false "\"/\"".toList, .star (.rule .RegexChar), .rule .EndingSlash]))
      (.rule .ErrUntermRegex) from rfl, no_recover, no_action] at h
  have hc : ({ ctx with recov := (.errUntermRegex, .rule .ErrUntermRegex) :: ctx.recov } : Ctx).recov =
    (.errUntermRegex, .rule .ErrUntermRegex) :: ctx.recov := rfl
  generalize ({ ctx with recov := (.errUntermRegex, .rule .ErrUntermRegex) :: ctx.recov } : Ctx) = cx at h hc
  simp only [no_seq, NoS, no_lit1] at h
  rcases h with h | ⟨_, _, _, _, -, h | ⟨_, _, _, _, -, h | ⟨_, _, _, _, -, h⟩⟩⟩
  · simp at h
  · exact no_star h
  · have h := noR.1 h
    unfold RuleNo at h
    simp only [grammar, no_choice, NoC] at h
    exact no_throw ⟨_, rfl⟩ hc h.2.1
  · exact h

/-- Where no integer begins, no sign and digit are ahead. -/
theorem int_head (h : No E ctx (.rule .IntValue) fr pre s) {m d t : Str} (hm : Minus m) (hd : AllDigits d) (hn : d ≠ []) :
    s ≠ m ++ (d ++ t) := by
  rintro rfl
  have h := noR.1 h
  unfold RuleNo at h
  simp only [grammar, no_action, no_seq, NoS, no_opt, no_digits] at h
  have hh : ¬ NoHead Dig (d ++ t) := by
    intro hh
    obtain ⟨c, d, rfl⟩ := List.exists_cons_of_ne_nil hn
    exact hh c (d ++ t) rfl (hd c (by simp))
  rcases h with h | ⟨_, _, _, _, ho, h | ⟨_, _, _, _, -, h⟩⟩
  · exact h
  · have hc := minus_mk (E := E) (ctx := ctx) (pre := pre) (a := d ++ t) (w := "\"-\"".toList) hm
      (digits_noHead hd hn fun c hc h => dig_ne hc (by decide) h)
    obtain ⟨_, hc⟩ := hc []
    obtain ⟨-, rfl, rfl, -⟩ := ho.det hc
    exact hh h
  · exact h

theorem no_lit_prefix (h1 : No E ctx (.rule .QuotedValue) fr pre s) (h2 : No E ctx (.rule .RegexValue) fr pre s)
    (h3 : No E ctx (.rule .BareValue) fr pre s) {x : Val} (hs : s = a ++ b) (h : Lit E pre a x) : False := by
  subst hs
  have h3 := noR.1 h3
  unfold RuleNo at h3
  simp only [grammar, no_choice, NoC] at h3
  have hi := h3.2.2.2.1
  have hb := noR.1 h3.2.2.2.2.1
  have dig : ∀ c u, a = c :: u → Dig c → False := by
    rintro c u rfl hc
    exact int_head hi (m := []) (d := [c]) (.inl rfl) (allDigits_one hc) (by simp) rfl
  cases h with
  | string _ h => subst h; exact quoted_head h1 _ _ rfl rfl
  | regex _ h => subst h; exact regex_head h2 _ _ rfl rfl
  | stamp h => obtain ⟨c, u, h, hc⟩ := stamp_cons h; exact dig c u h hc
  | day h => obtain ⟨c, u, h, hc⟩ := day_cons h; exact dig c u h hc
  | address h => obtain ⟨c, u, h, hc⟩ := addr_cons h []; exact dig c u (by simpa using h) hc
  | block h _ ha => obtain ⟨c, u, h, hc⟩ := addr_cons h _; exact dig c u (ha.trans h) hc
  | float hm hp hp2 _ _ ha => subst ha; exact int_head hi hm hp2 hp (by rw [List.append_assoc, List.append_assoc])
  | int hm hp hp2 ha => subst ha; exact int_head hi hm hp2 hp (List.append_assoc _ _ _)
  | true_ =>
    exact (okR.2 ⟨rfl, true_ok⟩ : Ok E ctx (.rule .BoolValue) [] pre _ _ _ _ []).clash (noR.2 hb)
  | false_ =>
    exact (okR.2 ⟨rfl, false_ok⟩ : Ok E ctx (.rule .BoolValue) [] pre _ _ _ _ []).clash (noR.2 hb)

theorem cls_notWs {c : Char} : clsMatch E [' ', '\n', '\t', '\r'] [] false true c = true ↔ ¬ IsWs c := by
  simp [clsMatch, IsWs]

theorem er_value (hv : ValuePlace E pre) (h : Er E ctx (.rule .Value) fr pre s p k) : Fault E pre s p k := by
  replace h := er_choice (er_rule h)
  rcases h with h | ⟨hno, h | ⟨-, h⟩⟩
  · replace h := er_action h
    rcases h with h | ⟨_, u, post, g, _, h, hr, hp⟩
    · replace h := er_choice (er_label h)
      rcases h with h | ⟨-, h | ⟨-, h | ⟨-, h⟩⟩⟩
      · exact er_quoted h
      · exact er_regex hv h
      · exact er_bare hv h
      · exact h.elim
    · exfalso
      simp only [runAct, bind, Except.bind, pure, Except.pure] at hr
      split at hr
      · cases hr
      · simp at hr
  · replace h := er_action h
    rcases h with h | ⟨_, u, post, _, _, h, hr, hp⟩
    · exact (silent_er (E := E) (by silent) h).elim
    · have e := h.1
      subst e hp
      rw [ok_plus] at h
      obtain ⟨-, vs, -, h, hne⟩ := h
      rw [reps_cls] at h
      obtain ⟨-, rfl, h1, h2⟩ := h
      have hu : u ≠ [] := by simpa using hne
      have hw : Word u post := by
        refine ⟨hu, fun c hc => cls_notWs.1 (h1 c hc), fun c t ht => ?_⟩
        by_contra hc
        exact h2 c t ht (cls_notWs.2 hc)
      obtain ⟨c, t, rfl⟩ := List.exists_cons_of_ne_nil hu
      simp only [runAct] at hr
      split at hr
      · rename_i hc
        subst hc
        simp only [Except.ok.injEq, Prod.mk.injEq, Option.some.injEq] at hr
        obtain ⟨-, rfl⟩ := hr
        exact .here (.closing hv rfl hw)
      · rename_i hc
        simp only [Except.ok.injEq, Prod.mk.injEq, Option.some.injEq] at hr
        obtain ⟨-, rfl⟩ := hr
        simp only [no_action, no_label, no_choice, NoC] at hno
        have hd : Diagnosis E pre (c :: t) post _ 1 := .unknown (s := (c :: t).flatMap (quoteChar E)) hv hw (by rintro t ht; cases ht; exact hc rfl)
          (fun x y hxy z hz => no_lit_prefix hno.1 hno.2.1 hno.2.2.1 hxy hz) strBody_quote
        have ht : ErrKind.text E (.unknownValue (c :: t)) = "unknown type of value [".toList ++ (c :: t) ++
            "] -- did you mean \"".toList ++ (c :: t).flatMap (quoteChar E) ++ "\"?".toList := by
          show "unknown type of value [".toList ++ (c :: t) ++ "] -- did you mean ".toList ++ quote E (c :: t) ++ "?".toList = _
          have e1 : "] -- did you mean \"".toList = "] -- did you mean ".toList ++ ['"'] := rfl
          have e2 : "\"?".toList = ['"'] ++ "?".toList := rfl
          have e3 : quote E (c :: t) = ['"'] ++ ((c :: t).flatMap (quoteChar E) ++ ['"']) := rfl
          rw [e1, e2, e3]
          simp only [List.append_assoc]
        refine .here ?_
        rw [ht]
        exact hd
  · exact h.elim

/-! ### Value lists -/

theorem row_items {q : Str} (h : Row E ctx listElem q s a b) : ∀ {p t x}, q = p ++ t →
    Lit E p t x → ∃ xs, Items E p (t ++ a) (x :: xs) := by
  induction h with
  | nil =>
    intro p t x _ hx
    exact ⟨[], by simpa using Items.one hx⟩
  | cons h1 _ ih =>
    intro p t x hq hx
    subst hq
    obtain ⟨-, w1, w2, t2, v1, v2, y, rfl, -, rfl, k1, k2, k3⟩ := ok_listElem.1 h1
    obtain ⟨y, rfl, hy⟩ := value_lit k3
    obtain ⟨xs, g3⟩ := ih (p := p ++ t ++ w1 ++ [','] ++ w2) (t := t2) (x := y) (by simp) hy
    refine ⟨y :: xs, ?_⟩
    rw [show ∀ r : Str, t ++ (w1 ++ ',' :: (w2 ++ t2) ++ r) = t ++ (w1 ++ ',' :: (w2 ++ (t2 ++ r))) by simp]
    refine .cons hx (rule_ws.1 k1).2.2.1 (rule_ws.1 k2).2.2.1 ?_
    have e2 : p ++ (t ++ (w1 ++ ',' :: w2)) = p ++ t ++ w1 ++ [','] ++ w2 := by simp
    rw [e2]
    exact g3

theorem er_valueList (hv : ValuesPlace E pre) (h : Er E ctx (.rule .ValueList) fr pre s p k) : Fault E pre s p k := by
  replace h := er_rule h
  rw [show grammar .ValueList = .choice [.action .onValueList2
        (.seq [.lit ['('] false "\"(\"".toList, .rule .ws, .label .first (.rule .Value),
          .label .rest (.star listElem), .rule .ws, .lit [')'] false "\")\"".toList]),
      .action .onValueList17 (.label .value (.rule .Value))] from rfl] at h
  replace h := er_choice h
  rcases h with h | ⟨-, h | ⟨-, h⟩⟩
  · replace h := er_action h
    rcases h with h | ⟨_, u, post, g, _, h, hr, hp⟩
    · replace h := er_seq h
      rcases h with h | ⟨_, _, _, _, h0, h | ⟨_, w, _, _, h1, h | ⟨_, t, _, _, h2, h | ⟨_, r, _, _, -, h | ⟨_, _, _, _, -,
        h | ⟨_, _, _, _, -, h⟩⟩⟩⟩⟩⟩
      · exact (er_lit h).elim
      · exact (silent_er silent_ws h).elim
      · obtain ⟨rfl, rfl, rfl, -⟩ := ok_lit1.1 h0
        obtain ⟨-, h1⟩ := okR.1 h1
        have e1 := h1.split
        subst e1
        have hpl : ValuePlace E (pre ++ ['('] ++ w) := .inr (.inl ⟨pre, w, hv, (rule_ws.1 h1).2.2.1, by simp⟩)
        exact Fault.after (a := ['(']) (Fault.after (er_value hpl (er_label h)))
      · obtain ⟨rfl, rfl, rfl, -⟩ := ok_lit1.1 h0
        obtain ⟨-, h1⟩ := okR.1 h1
        have e1 := h1.split
        subst e1
        obtain ⟨-, _, h2⟩ := ok_label.1 h2
        obtain ⟨-, h2⟩ := okR.1 h2
        have e2 := h2.split
        subst e2
        obtain ⟨x, -, hx⟩ := value_lit h2
        replace h := er_star (er_label h)
        obtain ⟨r, y, hrow, h⟩ := h
        have e3 := hrow.split
        subst e3
        obtain ⟨xs, hit⟩ := row_items hrow rfl hx
        replace h := er_seq h
        refine Fault.after (a := ['(']) (Fault.after (Fault.after (Fault.after ?_)))
        rcases h with h | ⟨_, w1, _, _, k1, h | ⟨_, _, _, _, k2, h | ⟨_, w2, _, _, k3, h | ⟨_, _, _, _, -, h⟩⟩⟩⟩
        · exact (silent_er silent_ws h).elim
        · exact (er_lit h).elim
        · exact (silent_er silent_ws h).elim
        · obtain ⟨-, k1⟩ := okR.1 k1
          obtain ⟨-, rfl, rfl, -⟩ := ok_lit1.1 k2
          obtain ⟨-, k3⟩ := okR.1 k3
          have f1 := k1.split
          subst f1
          have f3 := k3.split
          subst f3
          refine Fault.after (Fault.after (a := [',']) (Fault.after (er_value (.inr (.inr ?_)) h)))
          exact ⟨pre, w, t ++ r, x :: xs, w1, w2, hv, (rule_ws.1 h1).2.2.1, by simpa using hit, (rule_ws.1 k1).2.2.1,
            (rule_ws.1 k3).2.2.1, by simp⟩
        · exact h.elim
      · exact (silent_er silent_ws h).elim
      · exact (er_lit h).elim
      · exact h.elim
    · have e := h.1
      subst e hp
      simp only [ok_seq, OkS, ok_label, okR, ok_lit1, ok_star] at h
      obtain ⟨_, _, _, _, ⟨rfl, rfl, -, rfl⟩, _, rfl, _, w1, _, _, ⟨rfl, h1⟩, _, rfl, v1, t, _, _,
        ⟨rfl, _, rfl, h2⟩, _, rfl, _, r, _, _, ⟨rfl, _, rfl, vs, rfl, h3⟩, _, rfl, _, w2, _, _, ⟨rfl, h4⟩, _, rfl, _, _, _, _,
        ⟨rfl, rfl, -, rfl⟩, _, rfl, rfl, rfl, rfl, rfl⟩ := h
      obtain ⟨x, rfl, hx⟩ := value_lit h2
      obtain ⟨xs, g1, g2, g3⟩ := items_of h3 (p := pre ++ ['('] ++ w1) rfl hx
      rw [runAct_list g1] at hr
      split at hr
      · rename_i hl
        simp only [Except.ok.injEq, Prod.mk.injEq, Option.some.injEq] at hr
        obtain ⟨-, rfl⟩ := hr
        have hvs : vs = [] := List.length_eq_zero_iff.1 hl
        subst hvs
        have hr0 : r = [] := by
          cases h3 with
          | nil _ => rfl
        subst hr0
        refine .here (.single (w1 := w1) (w2 := w2) (t := t) (x := x) hv (rule_ws.1 h1).2.2.1 (by simpa using hx) (rule_ws.1 h4).2.2.1 (by simp))
      · simp at hr
  · replace h := er_action h
    rcases h with h | ⟨_, u, post, g, _, h, hr, hp⟩
    · exact er_value (.inl hv) (er_label h)
    · exfalso
      simp only [runAct, bind, Except.bind, pure, Except.pure] at hr
      split at hr
      · cases hr
      · simp at hr
  · exact h.elim

/-! ### Fields -/

theorem er_fieldPiece (h : Er E ctx (.rule .FieldPiece) fr pre s p k) : Fault E pre s p k := by
  replace h := er_rule h
  rw [show grammar .FieldPiece = .choice [.rule .QuotedFieldPiece, .rule .UnquotedFieldPiece, .rule .Star] from rfl] at h
  replace h := er_choice h
  rcases h with h | ⟨-, h | ⟨-, h | ⟨-, h⟩⟩⟩
  · replace h := er_rule h
    rw [show grammar .QuotedFieldPiece = .action .onQuotedFieldPiece1 (.label .qv (.rule .QuotedValue)) from rfl] at h
    replace h := er_action h
    rcases h with h | ⟨_, u, post, g, _, h, hr, hp⟩
    · exact er_quoted (er_label h)
    · exfalso
      simp only [runAct, bind, Except.bind, pure, Except.pure] at hr
      split at hr
      · cases hr
      · simp at hr
  · exact (silent_er (E := E) (by silent) h).elim
  · exact (silent_er (E := E) (by silent) h).elim
  · exact h.elim

theorem er_field (h : Er E ctx (.rule .Field) fr pre s p k) : Fault E pre s p k := by
  replace h := er_rule h
  rw [show grammar .Field = .action .onField1 (.label .pieces (.seq [.rule .FieldPiece, .star dotElem])) from rfl] at h
  replace h := er_action h
  rcases h with h | ⟨_, u, post, g, _, h, hr, hp⟩
  · replace h := er_seq (er_label h)
    rcases h with h | ⟨_, t, _, _, h0, h | ⟨_, _, _, _, -, h⟩⟩
    · exact er_fieldPiece h
    · have e := (okR.1 h0).2.split
      subst e
      replace h := er_star h
      obtain ⟨r, y, hrow, h⟩ := h
      have e3 := hrow.split
      subst e3
      replace h := er_seq h
      rcases h with h | ⟨_, _, _, _, k, h | ⟨_, _, _, _, -, h⟩⟩
      · exact (er_lit h).elim
      · obtain ⟨-, rfl, rfl, -⟩ := ok_lit1.1 k
        exact Fault.after (Fault.after (Fault.after (a := ['.']) (er_fieldPiece h)))
      · exact h.elim
    · exact h.elim
  · exfalso
    simp only [ok_label, ok_seq, OkS] at h
    obtain ⟨rfl, _, v1, _, _, _, -, _, rfl, v2, _, _, _, -, _, rfl, -, -, rfl, -⟩ := h
    simp only [runAct, VFrame.get, PV.toAny, bind, Except.bind, pure, Except.pure] at hr
    repeat' (split at hr)
    all_goals (try cases hr)
    all_goals (try simp_all)

/-! ### Clauses -/

theorem act_none {act : Act} (h : act ∈ [Act.onStart1, .onQuery1, .onOrClause2, .onAndClause2, .onNotClause2,
    .onComparison2, .onComparison10, .onComparison19]) {g : VFrame} {t : Str} {l : Loc} :
    runAct E act g t l ≠ .ok (v, some k) := by
  intro hr
  simp only [List.mem_cons, List.not_mem_nil, or_false] at h
  rcases h with rfl | rfl | rfl | rfl | rfl | rfl | rfl | rfl <;>
  · simp only [runAct, bind, Except.bind, pure, Except.pure] at hr
    repeat' (split at hr)
    all_goals (try cases hr)

theorem er_act {act : Act} {e : PExpr} (ha : act ∈ [Act.onStart1, .onQuery1, .onOrClause2, .onAndClause2, .onNotClause2,
    .onComparison2, .onComparison10, .onComparison19]) (h : Er E ctx (.action act e) fr pre s p k) :
    Er E ctx e fr pre s p k := by
  rcases er_action h with h | ⟨_, u, post, g, _, h, hr, hp⟩
  · exact h
  · exact absurd hr (act_none ha)

/-- Errors of a clause rule on texts up to a length are true. -/
def FaultTo (E : Env) (ctx : Ctx) (L : Level) (N : Nat) : Prop := ∀ ⦃fr pre s p k⦄, s.length ≤ N →
  Er E ctx (.rule (ruleOf L)) fr pre s p k → Fault E pre s p k

theorem er_head {x : List PExpr} (h : ErS E ctx ([.label .field (.rule .Field), .rule .ws,
      .lit [':'] false "\":\"".toList, .rule .ws] ++ x) fr pre s p k)
    (hx : ∀ g p1 xs w1 w2 r, s = p1 ++ (w1 ++ (':' :: (w2 ++ r))) → Path E p1 xs → Ws w1 → Ws w2 →
      ErS E ctx x g (pre ++ p1 ++ w1 ++ [':'] ++ w2) r p k → Fault E (pre ++ p1 ++ w1 ++ [':'] ++ w2) r p k) :
    Fault E pre s p k := by
  rcases h with h | ⟨_, p1, _, _, h1, h | ⟨_, w1, _, _, h2, h | ⟨_, _, _, _, h3, h | ⟨_, w2, _, g, h4, h⟩⟩⟩⟩
  · exact er_field (er_label h)
  · exact (silent_er silent_ws h).elim
  · exact (er_lit h).elim
  · exact (silent_er silent_ws h).elim
  · obtain ⟨-, _, h1⟩ := ok_label.1 h1
    obtain ⟨-, h1⟩ := okR.1 h1
    obtain ⟨-, h2⟩ := okR.1 h2
    obtain ⟨-, rfl, rfl, -⟩ := ok_lit1.1 h3
    obtain ⟨-, h4⟩ := okR.1 h4
    have e1 := h1.split
    have e2 := h2.split
    have e4 := h4.split
    subst e4
    subst e2
    subst e1
    obtain ⟨xs, -, hp⟩ := field_of h1
    exact Fault.after (Fault.after (Fault.after (a := [':']) (Fault.after (hx _ _ _ _ _ _ rfl hp (rule_ws.1 h2).2.2.1
      (rule_ws.1 h4).2.2.1 h))))

theorem cmp_fault {N : Nat} (ih : ∀ M < N, FaultTo E ctx .or M) : FaultTo E ctx .cmp N := by
  intro fr pre s p k hN h
  replace h : Er E ctx (.rule .Comparison) fr pre s p k := h
  replace h := er_rule h
  rw [grammar_comparison] at h
  replace h := er_choice h
  rcases h with h | ⟨-, h | ⟨-, h | ⟨-, h⟩⟩⟩
  · replace h := er_seq (er_act (by simp) h)
    rcases h with h | ⟨_, _, _, _, h0, h | ⟨_, w, _, _, h1, h | ⟨_, t, _, _, -, h | ⟨_, r, _, _, -, h | ⟨_, _, _, _, -, h⟩⟩⟩⟩⟩
    · exact (er_lit h).elim
    · exact (silent_er silent_ws h).elim
    · obtain ⟨rfl, rfl, rfl, -⟩ := ok_lit1.1 h0
      have e := (okR.1 h1).2.split
      subst e
      refine Fault.after (a := ['(']) (Fault.after (ih (N - 1) ?_ ?_ (er_label h)))
      · simp at hN; omega
      · simp at hN; omega
    · exact (silent_er silent_ws h).elim
    · exact (er_lit h).elim
    · exact h.elim
  · refine er_head (x := [.label .operation (.rule .opNoArgs)]) (er_seq (er_act (by simp) h)) ?_
    rintro g p1 xs w1 w2 r - - - - (h | ⟨_, _, _, _, -, h⟩)
    · exact (silent_er silent_opNoArgs (er_label h)).elim
    · exact h.elim
  · refine er_head (x := [.label .operation (.opt (.rule .opComp)), .rule .ws, .label .values (.rule .ValueList)])
      (er_seq (er_act (by simp) h)) ?_
    rintro g p1 xs w1 w2 r - hp hw1 hw2 (h | ⟨_, o, _, _, h5, h | ⟨_, w3, _, _, h6, h | ⟨_, _, _, _, -, h⟩⟩⟩)
    · exact (silent_er silent_opComp (er_opt (er_label h))).elim
    · exact (silent_er silent_ws h).elim
    · obtain ⟨-, _, h5⟩ := ok_label.1 h5
      have e5 := h5.1
      subst e5
      rw [ok_opt] at h5
      obtain ⟨-, h6⟩ := okR.1 h6
      have e6 := h6.split
      subst e6
      obtain ⟨op, hop⟩ : ∃ op, OpText o op := by
        rcases h5.2 with ⟨_, h⟩ | h
        · obtain ⟨op, -, ho⟩ := opComp_of (okR.1 h).2
          exact ⟨op, ho⟩
        · rw [h.2.2.1]
          exact ⟨_, .eq⟩
      exact Fault.after (Fault.after (er_valueList ⟨pre, p1, xs, w1, w2, o, op, w3, hp, hw1, hw2, hop, (rule_ws.1 h6).2.2.1,
        by simp⟩ (er_label h)))
    · exact h.elim
  · exact h.elim

theorem not_fault {N : Nat} (hc : FaultTo E ctx .cmp N) : FaultTo E ctx .not N := by
  intro fr pre s p k hN h
  replace h : Er E ctx (.rule .NotClause) fr pre s p k := h
  replace h := er_rule h
  rw [grammar_not] at h
  replace h := er_choice h
  rcases h with h | ⟨-, h | ⟨-, h⟩⟩
  · replace h := er_seq (er_act (by simp) h)
    rcases h with h | ⟨_, t, _, _, h0, h | ⟨_, w, _, _, h1, h⟩⟩
    · exact (silent_er silent_not h).elim
    · have e := (okR.1 h0).2.split
      subst e
      exact Fault.after (hc (by simp at hN; omega) (er_label h))
    · exact h.elim
  · exact hc hN h
  · exact h.elim

theorem bin_fault {N : Nat} {L M : Level} {act : Act} {x : Rule} {kw : Rule} {f1 f2 : PLabel} (hx : ruleOf L = x)
    (hg : grammar x = .choice [.action act (.seq [.label f1 (.rule (ruleOf M)), .rule .space,
      .rule kw, .rule .space, .label f2 (.rule x)]), .rule (ruleOf M)])
    (ha : act ∈ [Act.onStart1, .onQuery1, .onOrClause2, .onAndClause2, .onNotClause2,
      .onComparison2, .onComparison10, .onComparison19])
    (hq : Silent E (.rule kw)) (hk : ∀ {ctx pre s v a b}, RuleOk E ctx kw pre s v a b → a ≠ [])
    (ih : ∀ K < N, FaultTo E ctx L K) (hc : FaultTo E ctx M N) : FaultTo E ctx L N := by
  intro fr pre s p k hN h
  rw [hx] at h
  replace h := er_rule h
  rw [hg] at h
  replace h := er_choice h
  rcases h with h | ⟨-, h | ⟨-, h⟩⟩
  · replace h := er_seq (er_act ha h)
    rcases h with h | ⟨_, t, _, _, h0, h | ⟨_, w, _, _, h1, h | ⟨_, o, _, _, h2, h | ⟨_, w2, _, _, h3, h | ⟨_, _, _, _, -, h⟩⟩⟩⟩⟩
    · exact hc hN (er_label h)
    · exact (silent_er silent_space h).elim
    · exact (silent_er hq h).elim
    · exact (silent_er silent_space h).elim
    · have e0 := h0.1
      have e1 := (okR.1 h1).2.split
      have e2 := (okR.1 h2).2.split
      have e3 := (okR.1 h3).2.split
      subst e3
      subst e2
      subst e1
      subst e0
      have hl : o.length ≠ 0 := fun h => hk (okR.1 h2).2 (List.length_eq_zero_iff.1 h)
      rw [← hx] at h
      refine Fault.after (Fault.after (Fault.after (Fault.after (ih (N - 1) ?_ ?_ (er_label h)))))
      · simp at hN; omega
      · simp at hN; omega
    · exact h.elim
  · exact hc hN h
  · exact h.elim

theorem fault_to (N : Nat) : ∀ L, FaultTo E ctx L N := by
  induction N using Nat.strong_induction_on with
  | _ N ih =>
    have hc : FaultTo E ctx .cmp N := cmp_fault fun M hM => ih M hM .or
    have hn := not_fault hc
    have ha : FaultTo E ctx .and N := bin_fault (x := .AndClause) (M := .not) rfl grammar_and (by simp) silent_and
      (fun h => by rw [(logicalAND_iff.1 h).1]; simp) (fun M hM => ih M hM .and) hn
    have ho : FaultTo E ctx .or N := bin_fault (x := .OrClause) (M := .and) rfl grammar_or (by simp) silent_or
      (fun h => by rw [(logicalOR_iff.1 h).1]; simp) (fun M hM => ih M hM .or) ha
    intro L
    cases L <;> assumption

/-- The first error recorded while a text is read is true of the text it marks. -/
theorem er_start (h : Er E ctx (.rule .Start) fr pre s p k) : Fault E pre s p k := by
  replace h := er_rule h
  rw [show grammar .Start = .action .onStart1 (.seq [.label .query (.rule .Query), .rule .EOF]) from rfl] at h
  replace h := er_seq (er_act (by simp) h)
  rcases h with h | ⟨_, t, _, _, -, h | ⟨_, w, _, _, -, h⟩⟩
  · replace h := er_rule (er_label h)
    rw [show grammar .Query = .action .onQuery1 (.seq [.rule .ws, .label .clause (.rule .OrClause), .rule .ws]) from rfl] at h
    replace h := er_seq (er_act (by simp) h)
    rcases h with h | ⟨_, t, _, _, h1, h | ⟨_, w, _, _, -, h | ⟨_, w, _, _, -, h⟩⟩⟩
    · exact (silent_er silent_ws h).elim
    · have e := (okR.1 h1).2.split
      subst e
      exact Fault.after (fault_to _ .or (Nat.le_refl _) (er_label h))
    · exact (silent_er silent_ws h).elim
    · exact h.elim
  · exact (silent_er silent_eof h).elim
  · exact h.elim

end Aql
