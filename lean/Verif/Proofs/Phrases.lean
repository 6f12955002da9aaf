import Verif.Proofs.Syntax
/-!
Clean runs of the rules for value lists, operators and fields.
-/

namespace Aql

open Spec

variable {E : Env} {ctx : Ctx} {fr fr' : VFrame} {pre s a b : Str} {v : PV}

theorem ws_nil : Ws [] := by intro c hc; cases hc

theorem Ws.append {p q : Str} (hp : Ws p) (hq : Ws q) : Ws (p ++ q) := by
  intro c hc
  rcases List.mem_append.1 hc with h | h
  · exact hp c h
  · exact hq c h

theorem ws_ok (h : Ws a) (hb : NoHead IsWs b) : RuleOk E ctx .ws pre (a ++ b) (.list (charVals a)) a b :=
  rule_ws.2 ⟨rfl, rfl, h, hb⟩

/-! ### Value lists -/

/-- The repeated expression of ValueList. -/
def listElem : PExpr :=
  .seq [.rule .ws, .lit [','] false "\",\"".toList, .rule .ws, .rule .Value]

theorem ok_listElem : Ok E ctx listElem fr pre s v a b fr' ↔ fr' = fr ∧ ∃ w1 w2 t v1 v2 x,
    a = w1 ++ ',' :: (w2 ++ t) ∧ s = a ++ b ∧ v = .list [v1, .bytes [','], v2, x] ∧
    RuleOk E ctx .ws pre s v1 w1 (',' :: (w2 ++ (t ++ b))) ∧
    RuleOk E ctx .ws (pre ++ w1 ++ [',']) (w2 ++ (t ++ b)) v2 w2 (t ++ b) ∧
    RuleOk E ctx .Value (pre ++ w1 ++ [','] ++ w2) (t ++ b) x t b := by
  unfold listElem
  simp only [ok_seq, OkS, okR, ok_lit1]
  constructor
  · rintro ⟨v1, w1, _, _, ⟨rfl, h1⟩, _, rfl, _, _, _, _, ⟨rfl, rfl, rfl, rfl⟩, _, rfl, v2, w2, _, _, ⟨rfl, h2⟩, _, rfl,
      x, t, _, _, ⟨rfl, h3⟩, _, rfl, rfl, rfl, rfl, rfl⟩
    have e3 := h3.split
    have e2 := h2.split
    have e1 := h1.split
    subst e3
    subst e2
    subst e1
    exact ⟨rfl, w1, w2, t, v1, v2, x, by simp, by simp, rfl, h1, h2, h3⟩
  · rintro ⟨rfl, w1, w2, t, v1, v2, x, rfl, rfl, rfl, h1, h2, h3⟩
    exact ⟨v1, w1, _, _, ⟨rfl, h1⟩, ',' :: (w2 ++ t), rfl, _, [','], _, _, ⟨rfl, rfl, rfl, rfl⟩, w2 ++ t, rfl, v2, w2, _, _,
      ⟨rfl, h2⟩, t, rfl, x, t, b, _, ⟨rfl, h3⟩, [], by simp, rfl, rfl, rfl, rfl⟩

theorem mapPieces_cons {α : Type} {i : Nat} {conv : PV → GoM α} {l : List PV} {x : PV} {y : α} {ys : List α}
    {vs : List PV} (h1 : l[i]? = some x) (h2 : conv x = .ok y) (h3 : mapPieces i conv vs = .ok ys) :
    mapPieces i conv (.list l :: vs) = .ok (y :: ys) := by
  simp only [mapPieces, PV.toAny, PV.index, h1, h2, h3, bind, Except.bind, pure, Except.pure]

/-- Elements of a list after the first literal. -/
theorem items_of {vs : List PV} {q : Str} (h : Reps E ctx listElem q s vs a b) : ∀ {p t x}, q = p ++ t →
    Lit E p t x → ∃ xs, mapPieces 3 PV.asVal vs = .ok xs ∧ xs.length = vs.length ∧
      Items E p (t ++ a) (x :: xs) := by
  induction h with
  | nil _ =>
    intro p t x _ hx
    exact ⟨[], rfl, rfl, by simpa using Items.one hx⟩
  | cons h1 _ ih =>
    intro p t x hq hx
    subst hq
    obtain ⟨-, w1, w2, t2, v1, v2, y, rfl, -, rfl, k1, k2, k3⟩ := ok_listElem.1 h1
    obtain ⟨y, rfl, hy⟩ := value_lit k3
    obtain ⟨xs, g1, g2, g3⟩ := ih (p := p ++ t ++ w1 ++ [','] ++ w2) (t := t2) (x := y) (by simp) hy
    refine ⟨y :: xs, mapPieces_cons rfl rfl g1, by simp [g2], ?_⟩
    rw [show ∀ r : Str, t ++ (w1 ++ ',' :: (w2 ++ t2) ++ r) = t ++ (w1 ++ ',' :: (w2 ++ (t2 ++ r))) by simp]
    refine .cons hx (rule_ws.1 k1).2.2.1 (rule_ws.1 k2).2.2.1 ?_
    have e2 : p ++ (t ++ (w1 ++ ',' :: w2)) = p ++ t ++ w1 ++ [','] ++ w2 := by simp
    rw [e2]
    exact g3

theorem lit_notWs {x : Val} (h : Lit E pre a x) : NoHead IsWs (a ++ b) := by
  refine lit_noHead h ?_
  intro c hc hw
  unfold IsWs at hw
  rcases hw with rfl | rfl | rfl | rfl <;> revert hc <;> decide

/-- White space followed by a comma or parenthesis may follow a literal. -/
theorem fLit_ws {w t : Str} {c : Char} (hw : Ws w) (hc : c = ')' ∨ c = ',') : FLit (w ++ c :: t) := by
  match w with
  | [] => exact .inr ⟨c, t, rfl, by tauto⟩
  | [d] =>
    refine .inr ⟨d, c :: t, rfl, .inr (.inr ⟨hw d (by simp), ?_⟩)⟩
    rw [noHead_cons]
    rcases hc with rfl | rfl <;> decide
  | d :: e :: w =>
    refine .inr ⟨d, e :: w ++ c :: t, rfl, .inr (.inr ⟨hw d (by simp), ?_⟩)⟩
    rw [List.cons_append, noHead_cons]
    have := hw e (by simp)
    unfold IsWs at this
    rcases this with rfl | rfl | rfl | rfl <;> decide

theorem items_mk {xs : List Val} (h : Items E pre a xs) {w t' : Str} (hw : Ws w) (hb : b = w ++ ')' :: t') :
    ∃ t x xs' a' vs, a = t ++ a' ∧ xs = x :: xs' ∧ Lit E pre t x ∧ FLit (a' ++ b) ∧
      Reps E ctx listElem (pre ++ t) (a' ++ b) vs a' b ∧ mapPieces 3 PV.asVal vs = .ok xs' ∧
      vs.length = xs'.length := by
  induction h with
  | @one pre t x hx =>
    refine ⟨t, x, [], [], [], by simp, rfl, hx, ?_, .nil ?_, rfl, rfl⟩
    · rw [hb]; exact fLit_ws hw (.inl rfl)
    · unfold listElem
      simp only [no_seq, NoS, no_lit1]
      refine .inr ⟨.list (charVals w), w, ')' :: t', _, okR.2 ⟨rfl, ?_⟩, .inl ?_⟩
      · rw [List.nil_append, hb]
        exact ws_ok hw (by rw [noHead_cons]; decide)
      · rw [noHead_cons]; decide
  | @cons pre t x w1 w2 s xs hx h1 h2 _ ih =>
    obtain ⟨t2, x2, xs2, a2, vs, rfl, rfl, hx2, hf, hr, hm, hl⟩ := ih
    refine ⟨t, x, x2 :: xs2, w1 ++ ',' :: (w2 ++ (t2 ++ a2)), .list [.list (charVals w1), .bytes [','], .list (charVals w2), .val x2] :: vs, rfl, rfl, hx,
      ?_, ?_, ?_, by simp [hl]⟩
    · rw [List.append_assoc, List.cons_append]; exact fLit_ws h1 (.inr rfl)
    · have e : w1 ++ ',' :: (w2 ++ (t2 ++ a2)) = (w1 ++ ',' :: (w2 ++ t2)) ++ a2 := by simp
      rw [e]
      refine .cons (g := []) (b1 := a2 ++ b) (ok_listElem.2 ⟨rfl, w1, w2, t2, .list (charVals w1), .list (charVals w2), .val x2,
        rfl, by simp, rfl, ?_, ?_, ?_⟩) ?_
      · have := ws_ok (E := E) (ctx := ctx) (pre := pre ++ t) (b := ',' :: (w2 ++ (t2 ++ (a2 ++ b)))) h1
          (by rw [noHead_cons]; decide)
        simpa using this
      · exact ws_ok h2 (lit_notWs hx2)
      · have := lit_value (ctx := ctx) hx2 hf
        simpa using this
      · simpa using hr
    · exact mapPieces_cons rfl rfl hm

theorem runAct_list {x : Val} {xs : List Val} {us : List PV} {t : Str} {l : Loc}
    (h : mapPieces 3 PV.asVal us = .ok xs) :
    runAct E .onValueList2 [(.rest, .list us), (.first, .val x)] t l =
      if us.length = 0 then .ok (.nil, some ⟨.singleParen, none⟩) else .ok (.vals (x :: xs), none) := by
  have : runAct E .onValueList2 [(.rest, .list us), (.first, .val x)] t l =
      if us.length = 0 then .ok (.nil, some ⟨.singleParen, none⟩)
      else (mapPieces 3 PV.asVal us).bind fun more => .ok (.vals (x :: more), none) := rfl
  rw [this, h]
  rfl

/-- A value list is a literal or a parenthesised list. -/
theorem valueList_values (h : RuleOk E ctx .ValueList pre s v a b) : ∃ vs, v = .vals vs ∧ Values E pre a vs := by
  unfold RuleOk at h
  rw [show grammar .ValueList = .choice [.action .onValueList2
        (.seq [.lit ['('] false "\"(\"".toList, .rule .ws, .label .first (.rule .Value),
          .label .rest (.star listElem), .rule .ws, .lit [')'] false "\")\"".toList]),
      .action .onValueList17 (.label .value (.rule .Value))] from rfl] at h
  simp only [ok_choice, OkC, ok_action, ok_seq, OkS, ok_label, okR, ok_lit1, ok_star] at h
  obtain ⟨_, rfl, ⟨_, _, ⟨_, _, _, _, ⟨rfl, rfl, rfl, rfl⟩, _, rfl, _, w1, _, _, ⟨rfl, h1⟩, _, rfl, v1, t, _, _,
    ⟨rfl, _, rfl, h2⟩, _, rfl, _, r, _, _, ⟨rfl, _, rfl, vs, rfl, h3⟩, _, rfl, _, w2, _, _, ⟨rfl, h4⟩, _, rfl, _, _, _, _,
    ⟨rfl, rfl, rfl, rfl⟩, _, rfl, rfl, rfl, rfl, rfl⟩, hr⟩ | ⟨-, ⟨_, v0, ⟨rfl, _, rfl, h⟩, hr⟩ | h⟩⟩ := h
  · obtain ⟨x, rfl, hx⟩ := value_lit h2
    obtain ⟨xs, g1, g2, g3⟩ := items_of h3 (p := pre ++ ['('] ++ w1) rfl hx
    rw [runAct_list g1] at hr
    split at hr
    · simp at hr
    · rename_i hl
      simp only [Except.ok.injEq, Prod.mk.injEq, and_true] at hr
      refine ⟨x :: xs, hr.symm, ?_⟩
      have e : ['('] ++ (w1 ++ (t ++ (r ++ (w2 ++ ([')'] ++ []))))) = '(' :: (w1 ++ ((t ++ r) ++ (w2 ++ [')']))) := by simp
      rw [e]
      refine .list (rule_ws.1 h1).2.2.1 ?_ (by simp; omega) (rule_ws.1 h4).2.2.1
      simpa using g3
  · obtain ⟨x, rfl, hx⟩ := value_lit h
    have hr' : Except.ok (PV.vals [x], none) = (.ok (v, none) : ActRes) := hr
    simp only [Except.ok.injEq, Prod.mk.injEq, and_true] at hr'
    exact ⟨_, hr'.symm, .one hx⟩
  · exact h.2.elim

theorem valueList_ok {vs : List Val} (h : Values E pre a vs) (hb : FLit b) :
    RuleOk E ctx .ValueList pre (a ++ b) (.vals vs) a b := by
  unfold RuleOk
  rw [show grammar .ValueList = .choice [.action .onValueList2
        (.seq [.lit ['('] false "\"(\"".toList, .rule .ws, .label .first (.rule .Value),
          .label .rest (.star listElem), .rule .ws, .lit [')'] false "\")\"".toList]),
      .action .onValueList17 (.label .value (.rule .Value))] from rfl]
  cases h with
  | one hx =>
    refine ⟨[], ok_choice.2 ⟨rfl, .inr ⟨?_, .inl ⟨_, ok_action.2 ⟨_, ok_label.2 ⟨rfl, [], okR.2 ⟨rfl, lit_value hx hb⟩⟩, rfl⟩⟩⟩⟩⟩
    simp only [no_action, no_seq, NoS, no_lit1]
    refine .inl (lit_noHead hx ?_)
    rintro c hc rfl
    revert hc; decide
  | @list w1 w2 s _ h1 h2 h3 h4 =>
    obtain ⟨t, x, xs', a', us, rfl, rfl, hx, hf, hr, hm, hl⟩ := items_mk (ctx := ctx) (b := w2 ++ ')' :: b) h2 h4 rfl
    simp only [ok_choice, OkC, ok_action, ok_seq, OkS, ok_label, okR, ok_lit1, ok_star]
    refine ⟨[], rfl, .inl ⟨_, _, ⟨_, ['('], w1 ++ (t ++ (a' ++ (w2 ++ ')' :: b))), _, ⟨rfl, rfl, ?_, rfl⟩,
      w1 ++ (t ++ (a' ++ (w2 ++ [')']))), ?_, .list (charVals w1), w1, t ++ (a' ++ (w2 ++ ')' :: b)), _, ⟨rfl, ?_⟩, t ++ (a' ++ (w2 ++ [')'])), rfl,
      .val x, t, a' ++ (w2 ++ ')' :: b), _, ⟨rfl, [], rfl, ?_⟩, a' ++ (w2 ++ [')']), rfl, _, a', w2 ++ ')' :: b, _,
      ⟨rfl, [], rfl, us, rfl, ?_⟩, w2 ++ [')'], rfl, .list (charVals w2), w2, ')' :: b, _, ⟨rfl, ?_⟩, [')'], rfl, _, [')'], b, _,
      ⟨rfl, rfl, rfl, rfl⟩, [], rfl, rfl, rfl, rfl, rfl⟩, ?_⟩⟩
    · simp
    · simp
    · exact ws_ok h1 (lit_notWs hx)
    · have := lit_value (ctx := ctx) hx hf
      simpa using this
    · simpa using hr
    · exact ws_ok h4 (by rw [noHead_cons]; decide)
    · rw [runAct_list hm, if_neg]
      simp at h3; omega

/-! ### Operators -/

theorem opNoArgs_of (h : RuleOk E ctx .opNoArgs pre s v a b) : ∃ o, v = .op o ∧ NoArgOp a o := by
  unfold RuleOk at h
  simp only [grammar, ok_action, ok_choice, OkC, ok_lit] at h
  obtain ⟨_, _, ⟨rfl, ⟨_, rfl, rfl, rfl, rfl⟩ | ⟨-, ⟨_, rfl, rfl, rfl, rfl⟩ | h⟩⟩, hr⟩ := h
  · simp [runAct] at hr
    exact ⟨_, hr.symm, .exists_⟩
  · simp [runAct] at hr
    exact ⟨_, hr.symm, .null⟩
  · exact h.2.elim

theorem opNoArgs_ok {o : Op} (h : NoArgOp a o) : RuleOk E ctx .opNoArgs pre (a ++ b) (.op o) a b := by
  cases h with
  | exists_ => exact rule_action rfl (.left .lit) rfl
  | null => exact rule_action rfl (.right (no_lit_head (by intro c t h; cases h; decide)) (.left .lit)) rfl

theorem opNoArgs_no (h : NoHead (fun c => c = 'e' ∨ c = 'n') s) : RuleNo E ctx .opNoArgs pre s := by
  unfold RuleNo
  simp only [grammar, no_action, no_choice, NoC]
  exact ⟨no_lit_head fun c t hc h' => h c t hc (.inl h'), no_lit_head fun c t hc h' => h c t hc (.inr h'), trivial⟩

theorem opComp_of (h : RuleOk E ctx .opComp pre s v a b) : ∃ o, v = .op o ∧ OpText a o := by
  unfold RuleOk at h
  simp only [grammar, ok_action, ok_choice, OkC, ok_lit, ok_seq, OkS, ok_cls, ok_opt] at h
  obtain ⟨_, _, ⟨rfl, ⟨_, rfl, rfl, rfl, rfl⟩ | ⟨-, ⟨_, rfl, rfl, rfl, rfl⟩ | ⟨-, ⟨_, _, _, _, _, ⟨rfl, c, rfl, rfl, rfl, hc⟩, _,
    rfl, _, _, _, _, ⟨rfl, ho⟩, _, rfl, rfl, rfl, rfl, rfl⟩ | h⟩⟩⟩, hr⟩ := h
  · simp [runAct] at hr
    exact ⟨_, hr.symm, .bet⟩
  · simp [runAct] at hr
    exact ⟨_, hr.symm, .sim⟩
  · have hc' : c = '<' ∨ c = '>' := by simpa [clsMatch] using hc
    rcases ho with ⟨_, rfl, rfl, rfl, rfl⟩ | ⟨-, rfl, rfl, rfl⟩
    · rcases hc' with rfl | rfl
      · simp [runAct] at hr
        exact ⟨_, hr.symm, .lte⟩
      · simp [runAct] at hr
        exact ⟨_, hr.symm, .gte⟩
    · rcases hc' with rfl | rfl
      · simp [runAct] at hr
        exact ⟨_, hr.symm, .lt⟩
      · simp [runAct] at hr
        exact ⟨_, hr.symm, .gt⟩
  · exact h.2.elim

theorem no_bet {w : Str} (h : NoHead (· = '<') s) : No E ctx (.lit ['>', '<'] false w) fr pre ('>' :: s) := by
  rw [no_lit]
  rintro b hb
  cases hb
  exact h '<' b rfl rfl

theorem Can.clsC {c : Char} {w : Str} (h : c = '<' ∨ c = '>') :
    Can E ctx (.cls ['<', '>'] [] false false w) pre [c] b :=
  fun _ => ⟨_, ok_cls.2 ⟨rfl, c, rfl, rfl, rfl, by simpa [clsMatch] using h⟩⟩

theorem opComp_ok {o : Op} (h : OpText a o) (ha : a ≠ []) (h1 : NoHead (· = '=') b) (h2 : NoHead (· = '<') b) :
    RuleOk E ctx .opComp pre (a ++ b) (.op o) a b := by
  cases h with
  | eq => exact absurd rfl ha
  | lt =>
    exact rule_action rfl (.right (no_lit_head (by simp)) (.right (no_lit_head (by simp)) (.left (.seq
      (.cons (a1 := ['<']) (a2 := []) (.clsC (.inl rfl)) (.one (.optNone (no_lit1.2 h1)))))))) rfl
  | lte =>
    exact rule_action rfl (.right (no_lit_head (by simp)) (.right (no_lit_head (by simp)) (.left (.seq
      (.cons (a1 := ['<']) (a2 := ['=']) (.clsC (.inl rfl)) (.one (.opt .lit1))))))) rfl
  | gt =>
    exact rule_action rfl (.right (no_bet h2) (.right (no_lit_head (by simp)) (.left (.seq
      (.cons (a1 := ['>']) (a2 := []) (.clsC (.inr rfl)) (.one (.optNone (no_lit1.2 h1)))))))) rfl
  | gte =>
    exact rule_action rfl (.right (no_bet (by simp)) (.right (no_lit_head (by simp)) (.left (.seq
      (.cons (a1 := ['>']) (a2 := ['=']) (.clsC (.inr rfl)) (.one (.opt .lit1))))))) rfl
  | bet => exact rule_action rfl (.left .lit) rfl
  | sim => exact rule_action rfl (.right (no_lit_head (by simp)) (.left .lit)) rfl

theorem opComp_no (h : NoHead (fun c => c = '<' ∨ c = '>' ∨ c = '~') s) : RuleNo E ctx .opComp pre s := by
  unfold RuleNo
  simp only [grammar, no_action, no_choice, NoC, no_seq, NoS]
  refine ⟨no_lit_head fun c t hc h' => h c t hc (.inr (.inl h')), no_lit_head fun c t hc h' => h c t hc (.inr (.inr h')),
    .inl (no_cls'.2 fun c t hc h' => h c t hc ?_), trivial⟩
  have : c = '<' ∨ c = '>' := by simpa [clsMatch] using h'
  tauto

/-! ### Fields -/

/-- ASCII characters of bare names. -/
def AsciiField (c : Char) : Prop :=
  ('a' ≤ asciiLower c ∧ asciiLower c ≤ 'z') ∨ ('0' ≤ asciiLower c ∧ asciiLower c ≤ '9') ∨ asciiLower c = '_' ∨
    asciiLower c = '-'

instance : DecidablePred AsciiField := fun c => by unfold AsciiField; infer_instance

theorem fieldChar_ascii {c : Char} (h : c.toNat < 128) : FieldChar E c ↔ AsciiField c := by
  unfold FieldChar AsciiField
  rw [goLower_ascii h]

theorem not_fieldChar {c : Char} (h : c.toNat < 128) (h' : ¬ AsciiField c) : ¬ FieldChar E c := by
  rw [fieldChar_ascii h]; exact h'

theorem not_fieldChar_ws {c : Char} (h : IsWs c) : ¬ FieldChar E c := by
  unfold IsWs at h
  rcases h with rfl | rfl | rfl | rfl <;> exact not_fieldChar (by decide) (by decide)

theorem fieldPiece_of (h : RuleOk E ctx .FieldPiece pre s v a b) : ∃ x, v = .str x ∧ Piece E a x := by
  unfold RuleOk at h
  simp only [show grammar .FieldPiece = .choice [.rule .QuotedFieldPiece, .rule .UnquotedFieldPiece, .rule .Star] from rfl,
    ok_choice, OkC, okR] at h
  obtain ⟨_, rfl, ⟨_, rfl, h⟩ | ⟨-, ⟨_, rfl, h⟩ | ⟨-, ⟨_, rfl, h⟩ | h⟩⟩⟩ := h
  · unfold RuleOk at h
    simp only [show grammar .QuotedFieldPiece = .action .onQuotedFieldPiece1 (.label .qv (.rule .QuotedValue)) from rfl,
      ok_action, ok_label, okR] at h
    obtain ⟨_, _, ⟨rfl, _, rfl, h⟩, hr⟩ := h
    obtain ⟨-, t, x, hx, rfl, rfl⟩ := rule_quoted.1 h
    have hr' : Except.ok (PV.str x, none) = (.ok (v, none) : ActRes) := hr
    simp only [Except.ok.injEq, Prod.mk.injEq, and_true] at hr'
    exact ⟨x, hr'.symm, .quoted hx⟩
  · unfold RuleOk at h
    simp only [show grammar .UnquotedFieldPiece = .action .onUnquotedFieldPiece1
      (.plus (.cls ['_', '-'] [('a', 'z'), ('0', '9')] true false "[a-z0-9_-]i".toList)) from rfl,
      ok_action, ok_plus, reps_cls, cls_field] at h
    obtain ⟨_, _, ⟨rfl, _, rfl, ⟨rfl, rfl, h1, h2⟩, h3⟩, hr⟩ := h
    simp [runAct] at hr
    exact ⟨a, hr.symm, .bare (by simpa using h3) h1⟩
  · unfold RuleOk at h
    simp only [show grammar .Star = .action .onStar1 (.lit ['*'] false "\"*\"".toList) from rfl, ok_action, ok_lit1] at h
    obtain ⟨_, _, ⟨rfl, rfl, rfl, rfl⟩, hr⟩ := h
    simp [runAct] at hr
    exact ⟨_, hr.symm, .star⟩
  · exact h.2.elim

/-- What may follow a segment. -/
def FPiece (E : Env) (b : Str) : Prop := NoHead (FieldChar E) b

theorem quotedPiece_no (h : NoHead (· = '"') s) : RuleNo E ctx .QuotedFieldPiece pre s := by
  unfold RuleNo
  simp only [show grammar .QuotedFieldPiece = .action .onQuotedFieldPiece1 (.label .qv (.rule .QuotedValue)) from rfl,
    no_action, no_label, noR]
  exact rule_quoted_no h

theorem barePiece_no : RuleNo E ctx .UnquotedFieldPiece pre s ↔ NoHead (FieldChar E) s := by
  unfold RuleNo
  simp only [show grammar .UnquotedFieldPiece = .action .onUnquotedFieldPiece1
      (.plus (.cls ['_', '-'] [('a', 'z'), ('0', '9')] true false "[a-z0-9_-]i".toList)) from rfl,
    no_action, no_plus, no_cls', cls_field]

theorem fieldPiece_no (h : NoHead (fun c => c = '"' ∨ FieldChar E c ∨ c = '*') s) : RuleNo E ctx .FieldPiece pre s := by
  unfold RuleNo
  simp only [show grammar .FieldPiece = .choice [.rule .QuotedFieldPiece, .rule .UnquotedFieldPiece, .rule .Star] from rfl,
    no_choice, NoC, noR]
  refine ⟨quotedPiece_no fun c t hc h' => h c t hc (.inl h'), barePiece_no.2 fun c t hc h' => h c t hc (.inr (.inl h')), ?_,
    trivial⟩
  unfold RuleNo
  simp only [show grammar .Star = .action .onStar1 (.lit ['*'] false "\"*\"".toList) from rfl, no_action, no_lit1]
  exact fun c t hc h' => h c t hc (.inr (.inr h'))

theorem fieldPiece_ok {x : Str} (h : Piece E a x) (hb : FPiece E b) :
    RuleOk E ctx .FieldPiece pre (a ++ b) (.str x) a b := by
  unfold RuleOk
  simp only [show grammar .FieldPiece = .choice [.rule .QuotedFieldPiece, .rule .UnquotedFieldPiece, .rule .Star] from rfl,
    ok_choice, OkC, okR, noR]
  cases h with
  | @quoted t x hx =>
    refine ⟨_, rfl, .inl ⟨[], rfl, ?_⟩⟩
    unfold RuleOk
    simp only [show grammar .QuotedFieldPiece = .action .onQuotedFieldPiece1 (.label .qv (.rule .QuotedValue)) from rfl,
      ok_action, ok_label, okR]
    exact ⟨_, _, ⟨rfl, _, rfl, rule_quoted.2 ⟨rfl, t, x, hx, rfl, rfl⟩⟩, rfl⟩
  | bare h1 h2 =>
    refine ⟨_, rfl, .inr ⟨quotedPiece_no ?_, .inl ⟨[], rfl, ?_⟩⟩⟩
    · obtain ⟨c, t, rfl⟩ := List.exists_cons_of_ne_nil h1
      rw [List.cons_append, noHead_cons]
      rintro rfl
      exact not_fieldChar (by decide) (by decide) (h2 '"' (by simp))
    · unfold RuleOk
      simp only [show grammar .UnquotedFieldPiece = .action .onUnquotedFieldPiece1
        (.plus (.cls ['_', '-'] [('a', 'z'), ('0', '9')] true false "[a-z0-9_-]i".toList)) from rfl,
        ok_action, ok_plus, reps_cls, cls_field]
      exact ⟨_, _, ⟨rfl, _, rfl, ⟨trivial, rfl, h2, hb⟩, by simpa using h1⟩, rfl⟩
  | star =>
    refine ⟨_, rfl, .inr ⟨quotedPiece_no (by simp), .inr ⟨barePiece_no.2 ?_, .inl ⟨[], rfl, ?_⟩⟩⟩⟩
    · rw [List.cons_append, noHead_cons]
      exact not_fieldChar (by decide) (by decide)
    · unfold RuleOk
      simp only [show grammar .Star = .action .onStar1 (.lit ['*'] false "\"*\"".toList) from rfl, ok_action, ok_lit1]
      exact ⟨_, _, ⟨rfl, trivial, rfl, rfl⟩, rfl⟩

/-- The repeated expression of Field. -/
def dotElem : PExpr := .seq [.lit ['.'] false "\".\"".toList, .rule .FieldPiece]

theorem ok_dotElem : Ok E ctx dotElem fr pre s v a b fr' ↔ fr' = fr ∧ ∃ t x,
    a = '.' :: t ∧ s = a ++ b ∧ v = .list [.bytes ['.'], x] ∧ RuleOk E ctx .FieldPiece (pre ++ ['.']) (t ++ b) x t b := by
  unfold dotElem
  simp only [ok_seq, OkS, okR, ok_lit1]
  constructor
  · rintro ⟨_, _, _, _, ⟨rfl, rfl, rfl, rfl⟩, _, rfl, x, t, _, _, ⟨rfl, h⟩, _, rfl, rfl, rfl, rfl, rfl⟩
    have e := h.split
    subst e
    exact ⟨rfl, t, x, by simp, by simp, rfl, h⟩
  · rintro ⟨rfl, t, x, rfl, rfl, rfl, h⟩
    exact ⟨_, _, _, _, ⟨rfl, rfl, rfl, rfl⟩, t, rfl, x, t, b, _, ⟨rfl, h⟩, [], by simp, rfl, rfl, rfl, rfl⟩

theorem path_of {vs : List PV} {q : Str} (h : Reps E ctx dotElem q s vs a b) : ∀ {t x}, Piece E t x →
    ∃ xs, mapPieces 1 PV.asString vs = .ok xs ∧ Path E (t ++ a) (x :: xs) := by
  induction h with
  | nil _ =>
    intro t x hx
    exact ⟨[], rfl, by simpa using Path.one hx⟩
  | cons h1 _ ih =>
    intro t x hx
    obtain ⟨-, t2, y, rfl, -, rfl, k⟩ := ok_dotElem.1 h1
    obtain ⟨y, rfl, hy⟩ := fieldPiece_of k
    obtain ⟨xs, g1, g2⟩ := ih hy
    exact ⟨y :: xs, mapPieces_cons rfl rfl g1, .cons hx g2⟩

theorem path_mk {xs : List Str} (h : Path E a xs) (hb : FPiece E b) (hd : NoHead (· = '.') b) :
    ∃ t x xs' a', a = t ++ a' ∧ xs = x :: xs' ∧ Piece E t x ∧ FPiece E (a' ++ b) ∧
      ∀ pre, ∃ vs, Reps E ctx dotElem pre (a' ++ b) vs a' b ∧ mapPieces 1 PV.asString vs = .ok xs' := by
  induction h with
  | @one t x hx =>
    refine ⟨t, x, [], [], by simp, rfl, hx, hb, fun pre => ⟨[], .nil ?_, rfl⟩⟩
    unfold dotElem
    simp only [no_seq, NoS, no_lit1]
    exact .inl hd
  | @cons t x s xs hx _ ih =>
    obtain ⟨t2, x2, xs2, a2, rfl, rfl, hx2, hf, hr⟩ := ih
    refine ⟨t, x, x2 :: xs2, '.' :: (t2 ++ a2), rfl, rfl, hx, ?_, fun pre => ?_⟩
    · unfold FPiece
      rw [List.cons_append, noHead_cons]
      exact not_fieldChar (by decide) (by decide)
    · obtain ⟨vs, h1, h2⟩ := hr (pre ++ '.' :: t2)
      refine ⟨.list [.bytes ['.'], .str x2] :: vs, ?_, mapPieces_cons rfl rfl h2⟩
      refine .cons (a1 := '.' :: t2) (g := []) (b1 := a2 ++ b) (ok_dotElem.2 ⟨rfl, t2, .str x2, rfl, by simp, rfl, ?_⟩) h1
      exact fieldPiece_ok hx2 hf

theorem findStarIdx_none {xs : List Str} (h : findStarIdx xs = none) : withoutStars xs = xs := by
  induction xs with
  | nil => rfl
  | cons x xs ih =>
    unfold findStarIdx at h
    split at h
    · cases h
    · rename_i hx
      rw [Option.map_eq_none_iff] at h
      have := ih h
      unfold withoutStars at this ⊢
      rw [List.filter_cons_of_pos (by simpa using hx), this]

theorem findStarIdx_some {xs : List Str} {i : Nat} (h : findStarIdx xs = some i) :
    withoutStars (xs.take i ++ xs.drop (i + 1)) = withoutStars xs := by
  induction xs generalizing i with
  | nil => cases h
  | cons x xs ih =>
    unfold findStarIdx at h
    split at h
    · rename_i hx
      cases h
      unfold withoutStars
      simp [hx]
    · rename_i hx
      rw [Option.map_eq_some_iff] at h
      obtain ⟨j, hj, rfl⟩ := h
      have := ih hj
      unfold withoutStars at this ⊢
      simpa [hx] using this

/-- Removing the first star until there is none removes them all. -/
theorem removeStars_eq (xs : List Str) : removeStars xs = withoutStars xs := by
  induction h : xs.length using Nat.strong_induction_on generalizing xs with
  | _ n ih =>
    unfold removeStars
    split
    · rename_i h1
      exact (findStarIdx_none h1).symm
    · rename_i i h1
      have := findStarIdx_lt h1
      rw [ih _ _ _ rfl, findStarIdx_some h1]
      simp; omega

theorem runAct_field {x : Str} {xs : List Str} {us : List PV} {t : Str} {l : Loc}
    (h : mapPieces 1 PV.asString us = .ok xs) :
    runAct E .onField1 [(.pieces, .list [.str x, .list us])] t l = .ok (.fields (withoutStars (x :: xs)), none) := by
  have : runAct E .onField1 [(.pieces, .list [.str x, .list us])] t l =
      (mapPieces 1 PV.asString us).bind fun more => .ok (.fields (removeStars (x :: more)), none) := rfl
  rw [this, h, ← removeStars_eq]
  rfl

theorem field_of (h : RuleOk E ctx .Field pre s v a b) : ∃ xs, v = .fields (withoutStars xs) ∧ Path E a xs := by
  unfold RuleOk at h
  simp only [show grammar .Field = .action .onField1 (.label .pieces (.seq [.rule .FieldPiece, .star dotElem])) from rfl,
    ok_action, ok_label, ok_seq, OkS, okR, ok_star] at h
  obtain ⟨_, _, ⟨rfl, _, v1, t, _, _, ⟨rfl, h1⟩, _, rfl, _, r, _, _, ⟨rfl, us, rfl, h2⟩, _, rfl, rfl, rfl, rfl, rfl⟩, hr⟩ := h
  obtain ⟨x, rfl, hx⟩ := fieldPiece_of h1
  obtain ⟨xs, g1, g2⟩ := path_of h2 hx
  have hr' := runAct_field (E := E) (x := x) (t := t ++ (r ++ [])) (l := locAt pre s) g1
  rw [show ([] : List PV) ++ [.str x] ++ [.list us] = [.str x, .list us] from rfl] at hr
  rw [hr'] at hr
  simp only [Except.ok.injEq, Prod.mk.injEq, and_true] at hr
  exact ⟨_, hr.symm, by simpa using g2⟩

theorem field_ok {xs : List Str} (h : Path E a xs) (hb : FPiece E b) (hd : NoHead (· = '.') b) :
    RuleOk E ctx .Field pre (a ++ b) (.fields (withoutStars xs)) a b := by
  obtain ⟨t, x, xs', a', rfl, rfl, hx, hf, hr⟩ := path_mk (ctx := ctx) h hb hd
  obtain ⟨us, h1, h2⟩ := hr (pre ++ t)
  unfold RuleOk
  simp only [show grammar .Field = .action .onField1 (.label .pieces (.seq [.rule .FieldPiece, .star dotElem])) from rfl,
    ok_action, ok_label, ok_seq, OkS, okR, ok_star]
  refine ⟨_, _, ⟨rfl, _, .str x, t, a' ++ b, _, ⟨rfl, ?_⟩, a', rfl, .list us, a', b, _, ⟨rfl, us, rfl, h1⟩, [], by simp, rfl,
    rfl, rfl, rfl⟩, ?_⟩
  · have := fieldPiece_ok (ctx := ctx) (pre := pre) hx hf
    simpa using this
  · exact runAct_field h2

theorem field_no (h : NoHead (fun c => c = '"' ∨ FieldChar E c ∨ c = '*') s) : RuleNo E ctx .Field pre s := by
  unfold RuleNo
  simp only [show grammar .Field = .action .onField1 (.label .pieces (.seq [.rule .FieldPiece, .star dotElem])) from rfl,
    no_action, no_label, no_seq, NoS, noR]
  exact .inl (fieldPiece_no h)

end Aql
