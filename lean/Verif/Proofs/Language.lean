import Verif.Proofs.Phrases
/-!
The rules for clauses accept the stated language and build the stated trees.
-/

namespace Aql

open Spec

variable {E : Env} {ctx : Ctx} {fr fr' : VFrame} {pre s a b : Str} {v : PV}

/-! ### Shapes of the rules -/

theorem grammar_comparison : grammar .Comparison = .choice [
    .action .onComparison2 (.seq [.lit ['('] false "\"(\"".toList, .rule .ws, .label .query (.rule .OrClause), .rule .ws,
      .lit [')'] false "\")\"".toList]),
    .action .onComparison10 (.seq [.label .field (.rule .Field), .rule .ws, .lit [':'] false "\":\"".toList, .rule .ws,
      .label .operation (.rule .opNoArgs)]),
    .action .onComparison19 (.seq [.label .field (.rule .Field), .rule .ws, .lit [':'] false "\":\"".toList, .rule .ws,
      .label .operation (.opt (.rule .opComp)), .rule .ws, .label .values (.rule .ValueList)])] := rfl

theorem grammar_not : grammar .NotClause = .choice [
    .action .onNotClause2 (.seq [.rule .logicalNOT, .label .cmp (.rule .Comparison)]), .rule .Comparison] := rfl

theorem grammar_and : grammar .AndClause = .choice [
    .action .onAndClause2 (.seq [.label .lhs (.rule .NotClause), .rule .space, .rule .logicalAND, .rule .space,
      .label .rhs (.rule .AndClause)]), .rule .NotClause] := rfl

theorem grammar_or : grammar .OrClause = .choice [
    .action .onOrClause2 (.seq [.label .lhs (.rule .AndClause), .rule .space, .rule .logicalOR, .rule .space,
      .label .rhs (.rule .OrClause)]), .rule .AndClause] := rfl

/-- The rule for expressions of a level. -/
def ruleOf : Level → Rule
  | .or => .OrClause
  | .and => .AndClause
  | .not => .NotClause
  | .cmp => .Comparison

/-! ### Keywords -/

theorem logicalAND_iff : RuleOk E ctx .logicalAND pre s v a b ↔
    a = "AND".toList ∧ s = "AND".toList ++ b ∧ v = .bytes "AND".toList := by
  unfold RuleOk
  simp only [show grammar .logicalAND = .lit ['A', 'N', 'D'] false "\"AND\"".toList from rfl, ok_lit]
  constructor
  · rintro ⟨_, rfl, rfl, rfl, rfl⟩; exact ⟨rfl, rfl, rfl⟩
  · rintro ⟨rfl, rfl, rfl⟩; exact ⟨_, rfl, rfl, rfl, rfl⟩

theorem logicalOR_iff : RuleOk E ctx .logicalOR pre s v a b ↔
    a = "OR".toList ∧ s = "OR".toList ++ b ∧ v = .bytes "OR".toList := by
  unfold RuleOk
  simp only [show grammar .logicalOR = .lit ['O', 'R'] false "\"OR\"".toList from rfl, ok_lit]
  constructor
  · rintro ⟨_, rfl, rfl, rfl, rfl⟩; exact ⟨rfl, rfl, rfl⟩
  · rintro ⟨rfl, rfl, rfl⟩; exact ⟨_, rfl, rfl, rfl, rfl⟩

theorem logicalNOT_of (h : RuleOk E ctx .logicalNOT pre s v a b) : NotWord a := by
  unfold RuleOk at h
  simp only [show grammar .logicalNOT = .choice [.seq [.lit ['N', 'O', 'T'] false "\"NOT\"".toList, .rule .space],
    .seq [.lit ['!'] false "\"!\"".toList, .opt (.rule .space)]] from rfl, ok_choice, OkC, ok_seq, OkS, ok_lit, okR,
    ok_opt, rule_space] at h
  obtain ⟨_, _, ⟨_, _, _, _, _, ⟨rfl, rfl, rfl, rfl⟩, _, rfl, _, w, _, _, ⟨rfl, rfl, rfl, hw, -⟩, _, rfl, rfl, rfl, rfl, rfl⟩ |
    ⟨-, ⟨_, _, _, _, _, ⟨rfl, rfl, rfl, rfl⟩, _, rfl, _, w, _, _, ⟨rfl, ho⟩, _, rfl, rfl, rfl, rfl, rfl⟩ | h⟩⟩ := h
  · have := NotWord.word hw
    simpa using this
  · have hw : Ws w := by
      rcases ho with ⟨_, _, _, _, hw, _⟩ | ⟨_, _, rfl, _⟩
      · exact hw.1
      · exact ws_nil
    have := NotWord.bang hw
    simpa using this
  · exact h.2.elim

theorem NotWord.ne_nil {k : Str} (h : NotWord k) : k ≠ [] := by cases h <;> simp

/-! ### Soundness -/

/-- The rule of the level reads only texts of the level, below a length. -/
def SoundTo (E : Env) (ctx : Ctx) (L : Level) (N : Nat) : Prop := ∀ ⦃pre s v a b⦄, s.length ≤ N →
  RuleOk E ctx (ruleOf L) pre s v a b → ∃ n, v = .node n ∧ Text E L pre a n

theorem piece_head {x : Str} (h : Piece E a x) : ∃ c t, a = c :: t ∧ (c = '"' ∨ FieldChar E c ∨ c = '*') := by
  cases h with
  | quoted => exact ⟨_, _, rfl, .inl rfl⟩
  | bare h1 h2 =>
    obtain ⟨c, t, rfl⟩ := List.exists_cons_of_ne_nil h1
    exact ⟨c, t, rfl, .inr (.inl (h2 c (by simp)))⟩
  | star => exact ⟨_, _, rfl, .inr (.inr rfl)⟩

theorem path_head {xs : List Str} (h : Path E a xs) : ∃ c t, a = c :: t ∧ (c = '"' ∨ FieldChar E c ∨ c = '*') := by
  cases h with
  | one h => exact piece_head h
  | cons h _ =>
    obtain ⟨c, t, rfl, hc⟩ := piece_head h
    exact ⟨c, _, rfl, hc⟩

theorem head_not {c d : Char} (hc : c = '"' ∨ FieldChar E c ∨ c = '*') (hd : d.toNat < 128)
    (h : d ≠ '"' ∧ ¬ AsciiField d ∧ d ≠ '*') : c ≠ d := by
  rintro rfl
  rcases hc with hc | hc | hc
  · exact h.1 hc
  · exact not_fieldChar hd h.2.1 hc
  · exact h.2.2 hc

theorem path_getpos {xs : List Str} {r : Str} (h : Path E a xs) :
    getpos (locAt pre (a ++ s)) r = posAt pre r := by
  obtain ⟨c, t, rfl, hc⟩ := path_head h
  exact getpos_locAt (head_not hc (by decide) (by decide)) rfl

/-- The optional operator as the parser passes it on. -/
def OpVal (vo : PV) (op : Op) : Prop := vo = .nil ∧ op = .EQ ∨ vo = .op op

theorem runAct_compare {vo : PV} {op : Op} {xs : List Str} {vs : List Val} {l : Loc} (h : OpVal vo op) :
    runAct E .onComparison19 [(.values, .vals vs), (.operation, vo), (.field, .fields xs)] a l =
      .ok (.node (.expr op xs vs (getpos l a)), none) := by
  rcases h with ⟨rfl, rfl⟩ | rfl <;> rfl

theorem cmp_sound {N : Nat} (ih : ∀ M < N, SoundTo E ctx .or M) : SoundTo E ctx .cmp N := by
  intro pre s v a b hN h
  have h : RuleOk E ctx .Comparison pre s v a b := h
  unfold RuleOk at h
  simp only [grammar_comparison, ok_choice, OkC, ok_action, ok_seq, OkS, ok_label, okR, ok_lit1, ok_opt] at h
  obtain ⟨_, rfl, ⟨_, _, ⟨_, _, _, _, ⟨rfl, rfl, rfl, rfl⟩, _, rfl, _, w1, _, _, ⟨rfl, h1⟩, _, rfl, v1, t, _, _,
    ⟨rfl, _, rfl, h2⟩, _, rfl, _, w2, _, _, ⟨rfl, h3⟩, _, rfl, _, _, _, _, ⟨rfl, rfl, rfl, rfl⟩, _, rfl, rfl, rfl, rfl,
    rfl⟩, hr⟩ | ⟨-, ⟨_, _, ⟨v1, p, _, _, ⟨rfl, _, rfl, h1⟩, _, rfl, _, w1, _, _, ⟨rfl, h2⟩, _, rfl, _, _, _, _,
    ⟨rfl, rfl, rfl, rfl⟩, _, rfl, _, w2, _, _, ⟨rfl, h3⟩, _, rfl, _, o, _, _, ⟨rfl, _, rfl, h4⟩, _, rfl, rfl, rfl, rfl,
    rfl⟩, hr⟩ | ⟨-, ⟨_, _, ⟨v1, p, _, _, ⟨rfl, _, rfl, h1⟩, _, rfl, _, w1, _, _, ⟨rfl, h2⟩, _, rfl, _, _, _, _,
    ⟨rfl, rfl, rfl, rfl⟩, _, rfl, _, w2, _, _, ⟨rfl, h3⟩, _, rfl, vo, o, _, _, ⟨rfl, _, rfl, h4⟩, _, rfl, _, w3, _, _,
    ⟨rfl, h5⟩, _, rfl, _, u, _, _, ⟨rfl, _, rfl, h6⟩, _, rfl, rfl, rfl, rfl,
    rfl⟩, hr⟩ | h⟩⟩⟩ := h
  · have e1 := h1.split
    subst e1
    obtain ⟨n, rfl, ht⟩ := ih (N - 1) (by simp at hN; omega) (by simp at hN; omega) h2
    have hr' : Except.ok (PV.node n, none) = (.ok (v, none) : ActRes) := hr
    simp only [Except.ok.injEq, Prod.mk.injEq, and_true] at hr'
    refine ⟨n, hr'.symm, ?_⟩
    have := Text.group (E := E) (pre := pre) (w1 := w1) (s := t) (w2 := w2) (n := n) (rule_ws.1 h1).2.2.1 (by simpa using ht)
      (rule_ws.1 h3).2.2.1
    simpa using this
  · obtain ⟨xs, rfl, hp⟩ := field_of h1
    obtain ⟨o', rfl, ho⟩ := opNoArgs_of h4
    have e1 := h1.split
    have hr' : Except.ok (PV.node (.expr o' (withoutStars xs) [] (getpos (locAt pre s) (p ++ (w1 ++ ([':'] ++ (w2 ++ (o ++ []))))))), none)
      = (.ok (v, none) : ActRes) := hr
    simp only [Except.ok.injEq, Prod.mk.injEq, and_true] at hr'
    rw [e1, path_getpos hp] at hr'
    exact ⟨_, hr'.symm, .noArgs hp (rule_ws.1 h2).2.2.1 (rule_ws.1 h3).2.2.1 ho (by simp)⟩
  · obtain ⟨xs, rfl, hp⟩ := field_of h1
    obtain ⟨vs, rfl, hv⟩ := valueList_values h6
    have e1 := h1.split
    obtain ⟨op, hop, hvo⟩ : ∃ op, OpText o op ∧ OpVal vo op := by
      rcases h4 with ⟨_, _, h4⟩ | ⟨_, rfl, rfl, _⟩
      · obtain ⟨op, rfl, ho⟩ := opComp_of h4
        exact ⟨op, ho, .inr rfl⟩
      · exact ⟨_, .eq, .inl ⟨rfl, rfl⟩⟩
    rw [runAct_compare hvo] at hr
    simp only [Except.ok.injEq, Prod.mk.injEq, and_true] at hr
    rw [e1, path_getpos hp] at hr
    refine ⟨_, hr.symm, .compare hp (rule_ws.1 h2).2.2.1 (rule_ws.1 h3).2.2.1 hop (rule_ws.1 h5).2.2.1
      (s := u) ?_ (by simp)⟩
    simpa using hv
  · exact h.2.elim

theorem not_sound {N : Nat} (hc : SoundTo E ctx .cmp N) : SoundTo E ctx .not N := by
  intro pre s v a b hN h
  have h : RuleOk E ctx .NotClause pre s v a b := h
  unfold RuleOk at h
  simp only [grammar_not, ok_choice, OkC, ok_action, ok_seq, OkS, ok_label, okR] at h
  obtain ⟨_, rfl, ⟨_, _, ⟨_, k, _, _, ⟨rfl, h1⟩, _, rfl, v1, t, _, _, ⟨rfl, _, rfl, h2⟩, _, rfl, rfl, rfl, rfl,
    rfl⟩, hr⟩ | ⟨-, ⟨_, rfl, h⟩ | h⟩⟩ := h
  · have e1 := h1.split
    subst e1
    obtain ⟨n, rfl, ht⟩ := hc (by simp at hN; omega) h2
    have hr' : Except.ok (PV.node (.not n), none) = (.ok (v, none) : ActRes) := hr
    simp only [Except.ok.injEq, Prod.mk.injEq, and_true] at hr'
    exact ⟨_, hr'.symm, by simpa using Text.not (logicalNOT_of h1) ht⟩
  · obtain ⟨n, rfl, ht⟩ := hc hN h
    exact ⟨n, rfl, .notCmp ht⟩
  · exact h.2.elim

theorem and_sound {N : Nat} (ih : ∀ M < N, SoundTo E ctx .and M) (hc : SoundTo E ctx .not N) : SoundTo E ctx .and N := by
  intro pre s v a b hN h
  have h : RuleOk E ctx .AndClause pre s v a b := h
  unfold RuleOk at h
  simp only [grammar_and, ok_choice, OkC, ok_action, ok_seq, OkS, ok_label, okR, rule_space, logicalAND_iff] at h
  obtain ⟨_, rfl, ⟨_, _, ⟨v1, t, _, _, ⟨rfl, _, rfl, h1⟩, _, rfl, _, w1, _, _, ⟨rfl, rfl, rfl, h2, -⟩, _, rfl, _, _, _, _,
    ⟨rfl, rfl, rfl, rfl⟩, _, rfl, _, w2, _, _, ⟨rfl, rfl, rfl, h3, -⟩, _, rfl, v2, r, _, _, ⟨rfl, _, rfl, h4⟩, _, rfl, rfl,
    rfl, rfl, rfl⟩, hr⟩ | ⟨-, ⟨_, rfl, h⟩ | h⟩⟩ := h
  · have e1 := h1.split
    subst e1
    obtain ⟨n, rfl, ht⟩ := hc hN h1
    obtain ⟨m, rfl, hm⟩ := ih (N - 1) (by simp at hN; omega) (by simp at hN; omega) h4
    have hr' : Except.ok (PV.node (.and n m), none) = (.ok (v, none) : ActRes) := hr
    simp only [Except.ok.injEq, Prod.mk.injEq, and_true] at hr'
    refine ⟨_, hr'.symm, ?_⟩
    have := Text.and ht h2 h3 (b := r) (r := m) (by simpa using hm)
    simpa using this
  · obtain ⟨n, rfl, ht⟩ := hc hN h
    exact ⟨n, rfl, .andNot ht⟩
  · exact h.2.elim

theorem or_sound {N : Nat} (ih : ∀ M < N, SoundTo E ctx .or M) (hc : SoundTo E ctx .and N) : SoundTo E ctx .or N := by
  intro pre s v a b hN h
  have h : RuleOk E ctx .OrClause pre s v a b := h
  unfold RuleOk at h
  simp only [grammar_or, ok_choice, OkC, ok_action, ok_seq, OkS, ok_label, okR, rule_space, logicalOR_iff] at h
  obtain ⟨_, rfl, ⟨_, _, ⟨v1, t, _, _, ⟨rfl, _, rfl, h1⟩, _, rfl, _, w1, _, _, ⟨rfl, rfl, rfl, h2, -⟩, _, rfl, _, _, _, _,
    ⟨rfl, rfl, rfl, rfl⟩, _, rfl, _, w2, _, _, ⟨rfl, rfl, rfl, h3, -⟩, _, rfl, v2, r, _, _, ⟨rfl, _, rfl, h4⟩, _, rfl, rfl,
    rfl, rfl, rfl⟩, hr⟩ | ⟨-, ⟨_, rfl, h⟩ | h⟩⟩ := h
  · have e1 := h1.split
    subst e1
    obtain ⟨n, rfl, ht⟩ := hc hN h1
    obtain ⟨m, rfl, hm⟩ := ih (N - 1) (by simp at hN; omega) (by simp at hN; omega) h4
    have hr' : Except.ok (PV.node (.or n m), none) = (.ok (v, none) : ActRes) := hr
    simp only [Except.ok.injEq, Prod.mk.injEq, and_true] at hr'
    refine ⟨_, hr'.symm, ?_⟩
    have := Text.or ht h2 h3 (b := r) (r := m) (by simpa using hm)
    simpa using this
  · obtain ⟨n, rfl, ht⟩ := hc hN h
    exact ⟨n, rfl, .orAnd ht⟩
  · exact h.2.elim

theorem sound_to (N : Nat) : ∀ L, SoundTo E ctx L N := by
  induction N using Nat.strong_induction_on with
  | _ N ih =>
    have hc : SoundTo E ctx .cmp N := cmp_sound fun M hM => ih M hM .or
    have hn := not_sound hc
    have ha := and_sound (fun M hM => ih M hM .and) hn
    have ho := or_sound (fun M hM => ih M hM .or) ha
    intro L
    cases L <;> assumption

/-- A clause rule reads only texts of its level and yields their trees. -/
theorem clause_sound {L : Level} (h : RuleOk E ctx (ruleOf L) pre s v a b) : ∃ n, v = .node n ∧ Text E L pre a n :=
  sound_to s.length L (Nat.le_refl _) h

/-! ### What may follow -/

/-- White space and the end, a parenthesis or, after at least one space, a text in `p`. -/
def FEnd (p : Str → Prop) (b : Str) : Prop :=
  ∃ w t, b = w ++ t ∧ Ws w ∧ (t = [] ∨ (∃ u, t = ')' :: u) ∨ (w ≠ [] ∧ p t))

def OrNext (t : Str) : Prop := ∃ u, t = "OR".toList ++ u

def AndNext (t : Str) : Prop := ∃ u, t = "AND".toList ++ u

/-- What may follow an expression of a level. -/
def Follow : Level → Str → Prop
  | .or => FEnd fun _ => False
  | .and => FEnd OrNext
  | .not => FEnd fun t => AndNext t ∨ OrNext t
  | .cmp => FEnd fun t => AndNext t ∨ OrNext t

theorem FEnd.mono {p q : Str → Prop} (h : FEnd p b) (hpq : ∀ t, p t → q t) : FEnd q b := by
  obtain ⟨w, t, rfl, hw, ht⟩ := h
  refine ⟨w, t, rfl, hw, ?_⟩
  rcases ht with ht | ht | ⟨h1, h2⟩
  · exact .inl ht
  · exact .inr (.inl ht)
  · exact .inr (.inr ⟨h1, hpq t h2⟩)

theorem ws_noDig {w t : Str} (hw : Ws w) (ht : NoHead Dig t) : NoHead Dig (w ++ t) := by
  cases w with
  | nil => exact ht
  | cons c w =>
    rw [List.cons_append, noHead_cons]
    have := hw c (by simp)
    unfold IsWs at this
    rcases this with rfl | rfl | rfl | rfl <;> decide

/-- What follows a comparison may follow a literal. -/
theorem follow_lit (h : Follow .cmp b) : FLit b := by
  obtain ⟨w, t, rfl, hw, ht⟩ := h
  have hd : NoHead Dig t := by
    rcases ht with rfl | ⟨u, rfl⟩ | ⟨-, ⟨u, rfl⟩ | ⟨u, rfl⟩⟩
    · exact noHead_nil
    · rw [noHead_cons]; decide
    · exact noHead_cons.2 (by decide)
    · exact noHead_cons.2 (by decide)
  cases w with
  | nil =>
    rcases ht with rfl | ⟨u, rfl⟩ | ⟨h, -⟩
    · exact .inl rfl
    · exact .inr ⟨_, _, rfl, .inl rfl⟩
    · exact absurd rfl h
  | cons c w =>
    exact .inr ⟨c, w ++ t, rfl, .inr (.inr ⟨hw c (by simp), ws_noDig (fun d hd => hw d (by simp [hd])) hd⟩)⟩

theorem fEnd_notWs {p : Str → Prop} {w t : Str} (hp : ∀ t, p t → AndNext t ∨ OrNext t)
    (ht : t = [] ∨ (∃ u, t = ')' :: u) ∨ (w ≠ [] ∧ p t)) : NoHead IsWs t := by
  rcases ht with rfl | ⟨u, rfl⟩ | ⟨-, h⟩
  · exact noHead_nil
  · rw [noHead_cons]; decide
  · rcases hp t h with ⟨u, rfl⟩ | ⟨u, rfl⟩
    · exact noHead_cons.2 (by decide)
    · exact noHead_cons.2 (by decide)

/-! ### Heads -/

/-- First characters of expressions. -/
def TextHead (E : Env) (c : Char) : Prop := c = '(' ∨ c = '!' ∨ c = '"' ∨ FieldChar E c ∨ c = '*'

theorem text_head {L : Level} {n : Node} (h : Text E L pre a n) : ∃ c t, a = c :: t ∧ TextHead E c := by
  have hp : ∀ {p xs r}, Path E p xs → ∃ c t, p ++ r = c :: t ∧ TextHead E c := by
    intro p xs r h
    obtain ⟨c, t, rfl, hc⟩ := path_head h
    exact ⟨c, t ++ r, rfl, by unfold TextHead; tauto⟩
  induction h with
  | group => exact ⟨_, _, rfl, .inl rfl⟩
  | noArgs h _ _ _ ht => rw [ht]; exact hp h
  | compare h _ _ _ _ _ ht => rw [ht]; exact hp h
  | notCmp _ ih => exact ih
  | not hk _ _ =>
    cases hk with
    | word =>
      refine ⟨_, _, rfl, .inr (.inr (.inr (.inl ?_)))⟩
      rw [fieldChar_ascii (by decide)]; decide
    | bang => exact ⟨_, _, rfl, .inr (.inl rfl)⟩
  | andNot _ ih => exact ih
  | and _ _ _ _ ih _ =>
    obtain ⟨c, t, rfl, hc⟩ := ih
    exact ⟨c, _, rfl, hc⟩
  | orAnd _ ih => exact ih
  | or _ _ _ _ ih _ =>
    obtain ⟨c, t, rfl, hc⟩ := ih
    exact ⟨c, _, rfl, hc⟩

theorem text_notWs {L : Level} {n : Node} (h : Text E L pre a n) : NoHead IsWs (a ++ b) := by
  obtain ⟨c, t, rfl, hc⟩ := text_head h
  rw [List.cons_append, noHead_cons]
  intro hw
  rcases hc with rfl | rfl | rfl | hc | rfl
  · revert hw; decide
  · revert hw; decide
  · revert hw; decide
  · exact not_fieldChar_ws hw hc
  · revert hw; decide

theorem values_head {vs : List Val} (h : Values E pre a vs) : ∃ c t, a = c :: t ∧ (c = '(' ∨ LitHead c) := by
  cases h with
  | one h =>
    obtain ⟨c, u, rfl, hc⟩ := lit_cons h
    exact ⟨c, u, rfl, .inr hc⟩
  | list => exact ⟨_, _, rfl, .inl rfl⟩

theorem values_noHead {vs : List Val} {p : Char → Prop} (h : Values E pre a vs) (h1 : ¬ p '(')
    (h2 : ∀ c, LitHead c → ¬ p c) : NoHead p (a ++ b) := by
  obtain ⟨c, t, rfl, hc⟩ := values_head h
  rw [List.cons_append, noHead_cons]
  rcases hc with rfl | hc
  · exact h1
  · exact h2 c hc

/-! ### Keywords, completeness -/

theorem logicalNOT_ok {k : Str} (h : NotWord k) (hb : NoHead IsWs b) :
    ∃ v, RuleOk E ctx .logicalNOT pre (k ++ b) v k b := by
  have e : grammar .logicalNOT = .choice [.seq [.lit ['N', 'O', 'T'] false "\"NOT\"".toList, .rule .space],
    .seq [.lit ['!'] false "\"!\"".toList, .opt (.rule .space)]] := rfl
  cases h with
  | @word w hw =>
    have : Can E ctx (grammar .logicalNOT) pre (['N', 'O', 'T'] ++ w) b := by
      rw [e]
      exact .left (.seq (.cons .lit (.one (.rule' ⟨_, rule_space.2 ⟨rfl, rfl, hw, hb⟩⟩))))
    exact this.toRule
  | @bang w hw =>
    have : Can E ctx (grammar .logicalNOT) pre (['!'] ++ w) b := by
      rw [e]
      refine .right ?_ (.left (.seq (.cons .lit (.one ?_))))
      · rw [no_seq]
        exact .inl (no_lit_head (by simp))
      · by_cases hn : w = []
        · subst hn
          exact .optNone (noR.2 (rule_space_no.2 hb))
        · exact .opt (.rule' ⟨_, rule_space.2 ⟨rfl, rfl, ⟨hw, hn⟩, hb⟩⟩)
    exact this.toRule

theorem logicalNOT_no (h1 : ∀ w t, s = "NOT".toList ++ w ++ t → ¬ Space w) (h2 : NoHead (· = '!') s) :
    RuleNo E ctx .logicalNOT pre s := by
  unfold RuleNo
  simp only [show grammar .logicalNOT = .choice [.seq [.lit ['N', 'O', 'T'] false "\"NOT\"".toList, .rule .space],
    .seq [.lit ['!'] false "\"!\"".toList, .opt (.rule .space)]] from rfl, no_choice, NoC, no_seq, NoS]
  refine ⟨?_, .inl (no_lit1.2 h2), trivial⟩
  by_cases h : ∃ u, s = "NOT".toList ++ u
  · obtain ⟨u, rfl⟩ := h
    refine .inr ⟨_, _, u, _, ok_lit.2 ⟨rfl, rfl, rfl, rfl⟩, .inl (noR.2 (rule_space_no.2 ?_))⟩
    rintro c t rfl hc
    refine h1 [c] t (by simp) ⟨?_, by simp⟩
    intro d hd
    rw [List.mem_singleton.1 hd]; exact hc
  · refine .inl (no_lit.2 ?_)
    rintro u rfl
    exact h ⟨u, rfl⟩

/-! ### Comparisons, completeness -/

theorem colon_follow {w r : Str} (hw : Ws w) : FPiece E (w ++ ':' :: r) ∧ NoHead (· = '.') (w ++ ':' :: r) := by
  unfold FPiece
  cases w with
  | nil =>
    rw [List.nil_append, noHead_cons, noHead_cons]
    exact ⟨not_fieldChar (by decide) (by decide), by decide⟩
  | cons c w =>
    rw [List.cons_append, noHead_cons, noHead_cons]
    have := hw c (by simp)
    refine ⟨not_fieldChar_ws this, ?_⟩
    rintro rfl
    revert this; decide

theorem comparison_no_colon : RuleNo E ctx .Comparison pre (':' :: s) := by
  have hf : ∀ {ctx pre}, RuleNo E ctx .Field pre (':' :: s) := by
    intro ctx pre
    refine field_no ?_
    rw [noHead_cons]
    rintro (h | h | h)
    · revert h; decide
    · exact not_fieldChar (by decide) (by decide) h
    · revert h; decide
  unfold RuleNo
  simp only [grammar_comparison, no_choice, NoC, no_action, no_seq, NoS, no_label, noR, no_lit1]
  exact ⟨.inl (by simp), .inl hf, .inl hf, trivial⟩

theorem path_noParen {xs : List Str} (h : Path E a xs) : NoHead (· = '(') (a ++ b) := by
  obtain ⟨c, t, rfl, hc⟩ := path_head h
  rw [List.cons_append, noHead_cons]
  exact head_not hc (by decide) (by decide)

theorem noArgs_ok {xs : List Str} {p w1 w2 o : Str} {op : Op} (hp : Path E p xs) (h1 : Ws w1) (h2 : Ws w2)
    (ho : NoArgOp o op) (ht : a = p ++ (w1 ++ ':' :: (w2 ++ o))) :
    RuleOk E ctx .Comparison pre (a ++ b) (.node (.expr op (withoutStars xs) [] (posAt pre a))) a b := by
  unfold RuleOk
  simp only [grammar_comparison, ok_choice, OkC, ok_action, ok_seq, OkS, ok_label, okR, ok_lit1]
  have hf := colon_follow (E := E) (r := w2 ++ (o ++ b)) h1
  have ho' : NoHead IsWs (o ++ b) := by cases ho <;> exact noHead_cons.2 (by decide)
  have e : a ++ b = p ++ (w1 ++ ':' :: (w2 ++ (o ++ b))) := by rw [ht]; simp
  refine ⟨_, rfl, .inr ⟨?_, .inl ⟨_, _, ⟨.fields (withoutStars xs), p, w1 ++ ':' :: (w2 ++ (o ++ b)), _, ⟨rfl, [], rfl, ?_⟩, w1 ++ ':' :: (w2 ++ o), ht,
    .list (charVals w1), w1, ':' :: (w2 ++ (o ++ b)), _, ⟨rfl, ws_ok h1 (by rw [noHead_cons]; decide)⟩, ':' :: (w2 ++ o), rfl, _, _,
    w2 ++ (o ++ b), _, ⟨rfl, rfl, rfl, rfl⟩, w2 ++ o, rfl, .list (charVals w2), w2, o ++ b, _, ⟨rfl, ws_ok h2 ho'⟩, o, rfl, _, o, b, _,
    ⟨rfl, [], rfl, opNoArgs_ok ho⟩, [], by simp, rfl, rfl, rfl, rfl⟩, ?_⟩⟩⟩
  · rw [e]
    simp only [no_action, no_seq, NoS, no_lit1]
    exact .inl (path_noParen hp)
  · rw [e]
    exact field_ok hp hf.1 hf.2
  · have := path_getpos (pre := pre) (s := w1 ++ ':' :: (w2 ++ (o ++ b))) (r := a) hp
    rw [← e] at this
    rw [← this]
    rfl

theorem compare_ok' {xs : List Str} {p w1 w2 o w3 u : Str} {op : Op} {vs : List Val} (hp : Path E p xs) (h1 : Ws w1) (h2 : Ws w2)
    (ho : OpText o op) (h3 : Ws w3) (hv : Values E (pre ++ (p ++ (w1 ++ ':' :: (w2 ++ (o ++ w3))))) u vs)
    (ht : a = p ++ (w1 ++ ':' :: (w2 ++ (o ++ (w3 ++ u))))) (hn : o = [] → w3 = []) (hb : FLit b) :
    RuleOk E ctx .Comparison pre (a ++ b) (.node (.expr op (withoutStars xs) vs (posAt pre a))) a b := by
  unfold RuleOk
  simp only [grammar_comparison, ok_choice, OkC, ok_action, ok_seq, OkS, ok_label, okR, ok_lit1, no_action, no_seq, NoS, no_label,
    no_lit1, noR, ok_opt]
  have hf := colon_follow (E := E) (r := w2 ++ (o ++ (w3 ++ (u ++ b)))) h1
  have hvn : ∀ {p : Char → Prop}, ¬ p '(' → (∀ c, LitHead c → ¬ p c) → NoHead p (u ++ b) :=
    fun h1 h2 => values_noHead hv h1 h2
  have hu : NoHead IsWs (u ++ b) := hvn (by decide) (by
    intro c hc hw
    unfold IsWs at hw
    rcases hw with rfl | rfl | rfl | rfl <;> revert hc <;> decide)
  have hw3 : ∀ d, ¬ IsWs d → d ≠ '(' → ¬ LitHead d → NoHead (· = d) (w3 ++ (u ++ b)) := by
    intro d hd1 hd2 hd3
    cases w3 with
    | nil => exact hvn (Ne.symm hd2) (by rintro c hc rfl; exact hd3 hc)
    | cons c w =>
      rw [List.cons_append, noHead_cons]
      rintro rfl
      exact hd1 (h3 _ (by simp))
  have ho1 : NoHead IsWs (o ++ (w3 ++ (u ++ b))) := by
    cases ho with
    | eq => rw [hn rfl]; exact hu
    | _ => exact noHead_cons.2 (by decide)
  have ho2 : NoHead (fun c => c = 'e' ∨ c = 'n') (o ++ (w3 ++ (u ++ b))) := by
    cases ho with
    | eq =>
      rw [hn rfl]
      refine hvn (by decide) ?_
      rintro c hc (rfl | rfl) <;> revert hc <;> decide
    | _ => exact noHead_cons.2 (by decide)
  obtain ⟨vo, hvo, hop⟩ : ∃ vo, OpVal vo op ∧ ∀ pre,
      ((∃ g, g = ([] : VFrame) ∧ RuleOk E ctx .opComp pre (o ++ (w3 ++ (u ++ b))) vo o (w3 ++ (u ++ b))) ∨
      (RuleNo E ctx .opComp pre (o ++ (w3 ++ (u ++ b))) ∧ vo = .nil ∧ o = [] ∧
        o ++ (w3 ++ (u ++ b)) = w3 ++ (u ++ b))) := by
    by_cases ho0 : o = []
    · subst ho0
      cases ho
      refine ⟨.nil, .inl ⟨rfl, rfl⟩, fun pre => .inr ⟨opComp_no ?_, rfl, rfl, rfl⟩⟩
      rw [hn rfl]
      refine hvn (by decide) ?_
      rintro c hc (rfl | rfl | rfl) <;> revert hc <;> decide
    · exact ⟨.op op, .inr rfl, fun pre => .inl ⟨_, rfl, opComp_ok ho ho0 (hw3 _ (by decide) (by decide) (by decide))
        (hw3 _ (by decide) (by decide) (by decide))⟩⟩
  have e : a ++ b = p ++ (w1 ++ ':' :: (w2 ++ (o ++ (w3 ++ (u ++ b))))) := by rw [ht]; simp
  have k1 : RuleOk E ctx .Field pre (a ++ b) (.fields (withoutStars xs)) p (w1 ++ ':' :: (w2 ++ (o ++ (w3 ++ (u ++ b))))) := by
    rw [e]; exact field_ok hp hf.1 hf.2
  have k2 : ∀ {pre}, RuleOk E ctx .ws pre (w1 ++ ':' :: (w2 ++ (o ++ (w3 ++ (u ++ b))))) (.list (charVals w1)) w1
      (':' :: (w2 ++ (o ++ (w3 ++ (u ++ b))))) := ws_ok h1 (by rw [noHead_cons]; decide)
  have k3 : ∀ {pre}, RuleOk E ctx .ws pre (w2 ++ (o ++ (w3 ++ (u ++ b)))) (.list (charVals w2)) w2
      (o ++ (w3 ++ (u ++ b))) := ws_ok h2 ho1
  refine ⟨_, rfl, .inr ⟨.inl ?_, .inr ⟨.inr ⟨_, _, _, _, ⟨rfl, [], rfl, k1⟩, .inr ⟨_, _, _, _, ⟨rfl, k2⟩, .inr ⟨_, _, _, _,
    ⟨rfl, rfl, rfl, rfl⟩, .inr ⟨_, _, _, _, ⟨rfl, k3⟩, .inl (opNoArgs_no ho2)⟩⟩⟩⟩, .inl ⟨_, _, ⟨_, p, _, _, ⟨rfl, [], rfl, k1⟩,
    w1 ++ ':' :: (w2 ++ (o ++ (w3 ++ u))), ht, _, w1, _, _, ⟨rfl, k2⟩, ':' :: (w2 ++ (o ++ (w3 ++ u))), rfl, _, _, _, _,
    ⟨rfl, rfl, rfl, rfl⟩, w2 ++ (o ++ (w3 ++ u)), rfl, _, w2, _, _, ⟨rfl, k3⟩, o ++ (w3 ++ u), rfl, vo, o, w3 ++ (u ++ b), _,
    ⟨rfl, [], rfl, hop _⟩, w3 ++ u, rfl, .list (charVals w3), w3, u ++ b, _, ⟨rfl, ws_ok h3 hu⟩, u, rfl, .vals vs, u, b, _,
    ⟨rfl, [], rfl, ?_⟩, [], by simp, rfl, rfl, rfl, rfl⟩, ?_⟩⟩⟩⟩
  · rw [e]; exact path_noParen hp
  · have := valueList_ok (ctx := ctx) hv hb
    simpa using this
  · rw [runAct_compare hvo, e, path_getpos hp]

theorem compare_ok {xs : List Str} {p w1 w2 o w3 u : Str} {op : Op} {vs : List Val} (hp : Path E p xs) (h1 : Ws w1) (h2 : Ws w2)
    (ho : OpText o op) (h3 : Ws w3) (hv : Values E (pre ++ (p ++ (w1 ++ ':' :: (w2 ++ (o ++ w3))))) u vs)
    (ht : a = p ++ (w1 ++ ':' :: (w2 ++ (o ++ (w3 ++ u))))) (hb : FLit b) :
    RuleOk E ctx .Comparison pre (a ++ b) (.node (.expr op (withoutStars xs) vs (posAt pre a))) a b := by
  by_cases ho0 : o = []
  · subst ho0
    exact compare_ok' (w2 := w2 ++ w3) (w3 := []) hp h1 (Ws.append h2 h3) ho ws_nil (by simpa using hv) (by simpa using ht)
      (fun _ => rfl) hb
  · exact compare_ok' hp h1 h2 ho h3 hv ht (fun h => absurd h ho0) hb

/-! ### Negations, completeness -/

theorem span_unique {p : Char → Prop} : ∀ {a b a' b' : Str}, a ++ b = a' ++ b' → (∀ c ∈ a, p c) → (∀ c ∈ a', p c) →
    NoHead p b → NoHead p b' → a = a'
  | [], b, [], b', _, _, _, _, _ => rfl
  | [], b, c :: a', b', h, _, h2, h3, _ => absurd (h2 c (by simp)) (h3 c _ h)
  | c :: a, b, [], b', h, h1, _, _, h4 => absurd (h1 c (by simp)) (h4 c _ h.symm)
  | c :: a, b, d :: a', b', h, h1, h2, h3, h4 => by
    simp only [List.cons_append, List.cons.injEq] at h
    obtain ⟨rfl, h⟩ := h
    rw [span_unique h (fun x hx => h1 x (by simp [hx])) (fun x hx => h2 x (by simp [hx])) h3 h4]

/-- A path followed by a colon begins with `NOT` and white space only if it is `NOT`. -/
theorem path_NOT {xs : List Str} {p w1 r w t : Str} (hp : Path E p xs) (h1 : Ws w1)
    (h : p ++ (w1 ++ ':' :: r) = "NOT".toList ++ w ++ t) (hw : Space w) : p = "NOT".toList := by
  have hN : ∀ c ∈ "NOT".toList, FieldChar E c := by
    intro c hc
    have : c = 'N' ∨ c = 'O' ∨ c = 'T' := by simpa using hc
    rcases this with rfl | rfl | rfl <;> (rw [fieldChar_ascii (by decide)]; decide)
  obtain ⟨d, w, rfl⟩ := List.exists_cons_of_ne_nil hw.2
  have hd : IsWs d := hw.1 d (by simp)
  have hd' : NoHead (FieldChar E) (d :: w ++ t) := noHead_cons.2 (not_fieldChar_ws hd)
  have key : ∀ {u x z}, Piece E u x → u ++ z = "NOT".toList ++ (d :: w ++ t) → NoHead (FieldChar E) z →
      u = "NOT".toList := by
    intro u x z hu he hz
    cases hu with
    | quoted => simp at he
    | bare h1 h2 => exact span_unique he h2 hN hz hd'
    | star => simp at he
  have h' : p ++ (w1 ++ ':' :: r) = "NOT".toList ++ (d :: w ++ t) := by rw [h]; simp
  cases hp with
  | one hu => exact key hu h' (colon_follow h1).1
  | @cons u x s xs hu hs =>
    have e : u ++ '.' :: s ++ (w1 ++ ':' :: r) = u ++ '.' :: (s ++ (w1 ++ ':' :: r)) := by simp
    rw [e] at h'
    have := key hu h' (noHead_cons.2 (not_fieldChar (by decide) (by decide)))
    rw [this] at h'
    have h'' := List.append_cancel_left h'
    simp only [List.cons_append, List.cons.injEq] at h''
    rw [← h''.1] at hd
    exact absurd hd (by decide)

/-- The text of a comparison is not taken for a negation. -/
theorem notClause_no {n : Node} (h : Text E .cmp pre a n) :
    No E ctx (.action .onNotClause2 (.seq [.rule .logicalNOT, .label .cmp (.rule .Comparison)])) fr pre (a ++ b) := by
  have key : ∀ {p xs w1 r}, Path E p xs → Ws w1 → a ++ b = p ++ (w1 ++ ':' :: r) →
      No E ctx (.action .onNotClause2 (.seq [.rule .logicalNOT, .label .cmp (.rule .Comparison)])) fr pre (a ++ b) := by
    intro p xs w1 r hp h1 e
    rw [e]
    simp only [no_action, no_seq, NoS, noR, no_label]
    by_cases hN : ∃ w t, p ++ (w1 ++ ':' :: r) = "NOT".toList ++ w ++ t ∧ Space w
    · obtain ⟨w, t, he, hw⟩ := hN
      have hpN := path_NOT hp h1 he hw
      subst hpN
      rw [List.append_assoc] at he
      have he' := List.append_cancel_left he
      have hne : w1 ≠ [] := by
        rintro rfl
        obtain ⟨d, w, rfl⟩ := List.exists_cons_of_ne_nil hw.2
        simp only [List.nil_append, List.cons_append, List.cons.injEq] at he'
        have := hw.1 d (by simp)
        rw [← he'.1] at this
        revert this; decide
      obtain ⟨v, hv⟩ := logicalNOT_ok (E := E) (ctx := ctx) (pre := pre) (b := ':' :: r) (.word ⟨h1, hne⟩)
        (by rw [noHead_cons]; decide)
      refine .inr ⟨v, 'N' :: 'O' :: 'T' :: w1, ':' :: r, fr, okR.2 ⟨rfl, ?_⟩, .inl comparison_no_colon⟩
      simpa using hv
    · refine .inl (logicalNOT_no ?_ ?_)
      · intro w t he hw
        exact hN ⟨w, t, he, hw⟩
      · obtain ⟨c, t, rfl, hc⟩ := path_head hp
        rw [List.cons_append, noHead_cons]
        exact head_not hc (by decide) (by decide)
  cases h with
  | group =>
    simp only [no_action, no_seq, NoS, noR, no_label]
    refine .inl (logicalNOT_no ?_ ?_)
    · intro w t he
      simp at he
    · exact noHead_cons.2 (by decide)
  | @noArgs _ _ _ _ w2 o _ _ hp h1 h2 ho ht => exact key (r := w2 ++ (o ++ b)) hp h1 (by rw [ht]; simp)
  | @compare _ _ _ _ w2 o _ w3 u _ _ hp h1 h2 ho h3 hv ht =>
    exact key (r := w2 ++ (o ++ (w3 ++ (u ++ b)))) hp h1 (by rw [ht]; simp)

/-! ### Completeness -/

theorem clause_complete {L : Level} {n : Node} (h : Text E L pre a n) : ∀ {b}, Follow L b →
    RuleOk E ctx (ruleOf L) pre (a ++ b) (.node n) a b := by
  induction h with
  | @group pre w1 s w2 n h1 h2 h3 ih =>
    intro b hb
    show RuleOk E ctx .Comparison _ _ _ _ _
    unfold RuleOk
    simp only [grammar_comparison, ok_choice, OkC, ok_action, ok_seq, OkS, ok_label, okR, ok_lit1]
    have hs := ih (b := w2 ++ ')' :: b) ⟨w2, ')' :: b, rfl, h3, .inr (.inl ⟨b, rfl⟩)⟩
    refine ⟨_, rfl, .inl ⟨_, _, ⟨_, _, w1 ++ (s ++ (w2 ++ ')' :: b)), _, ⟨rfl, rfl, ?_, rfl⟩, w1 ++ (s ++ (w2 ++ [')'])), rfl,
      .list (charVals w1), w1, s ++ (w2 ++ ')' :: b), _, ⟨rfl, ws_ok h1 (text_notWs h2)⟩, s ++ (w2 ++ [')']), rfl, .node n, s,
      w2 ++ ')' :: b, _, ⟨rfl, [], rfl, ?_⟩, w2 ++ [')'], rfl, .list (charVals w2), w2, ')' :: b, _,
      ⟨rfl, ws_ok h3 (by rw [noHead_cons]; decide)⟩, [')'], rfl, _, _, b, _, ⟨rfl, rfl, rfl, rfl⟩, [], rfl, rfl, rfl, rfl, rfl⟩, ?_⟩⟩
    · simp
    · have e : pre ++ ['('] ++ w1 = pre ++ '(' :: w1 := by simp
      rw [e]; exact hs
    · rfl
  | noArgs hp h1 h2 ho ht => intro b hb; exact noArgs_ok hp h1 h2 ho ht
  | compare hp h1 h2 ho h3 hv ht => intro b hb; exact compare_ok hp h1 h2 ho h3 hv ht (follow_lit hb)
  | notCmp h ih =>
    intro b hb
    show RuleOk E ctx .NotClause _ _ _ _ _
    unfold RuleOk
    rw [grammar_not]
    exact ⟨_, ok_choice.2 ⟨rfl, .inr ⟨notClause_no h, .inl ⟨_, okR.2 ⟨rfl, ih hb⟩⟩⟩⟩⟩
  | @not pre k s n hk h ih =>
    intro b hb
    show RuleOk E ctx .NotClause _ _ _ _ _
    unfold RuleOk
    simp only [grammar_not, ok_choice, OkC, ok_action, ok_seq, OkS, ok_label, okR]
    obtain ⟨v, hv⟩ := logicalNOT_ok (E := E) (ctx := ctx) (pre := pre) (b := s ++ b) hk (text_notWs h)
    exact ⟨_, rfl, .inl ⟨_, _, ⟨v, k, s ++ b, _, ⟨rfl, by simpa using hv⟩, s, rfl, _, s, b, _, ⟨rfl, [], rfl, ih hb⟩, [],
      by simp, rfl, rfl, rfl, rfl⟩, rfl⟩⟩
  | @andNot pre s n h ih =>
    intro b hb
    show RuleOk E ctx .AndClause _ _ _ _ _
    unfold RuleOk
    have hs := ih (b := b) (hb.mono fun t ht => .inr ht)
    simp only [grammar_and, ok_choice, OkC, no_action, no_seq, NoS, no_label, noR, ok_label, okR]
    refine ⟨_, rfl, .inr ⟨.inr ⟨_, s, b, _, ⟨rfl, [], rfl, hs⟩, ?_⟩, .inl ⟨[], rfl, hs⟩⟩⟩
    obtain ⟨w, t, rfl, hw, ht⟩ := hb
    have hws := fEnd_notWs (p := OrNext) (fun t ht => .inr ht) ht
    by_cases hw0 : w = []
    · subst hw0
      exact .inl (rule_space_no.2 hws)
    · refine .inr ⟨_, w, t, _, ⟨rfl, rule_space.2 ⟨rfl, rfl, ⟨hw, hw0⟩, hws⟩⟩, .inl ?_⟩
      show No E ctx (.lit ['A', 'N', 'D'] false "\"AND\"".toList) [] _ t
      refine no_lit_head ?_
      rcases ht with rfl | ⟨u, rfl⟩ | ⟨-, ⟨u, rfl⟩⟩
      · exact noHead_nil
      · exact noHead_cons.2 (by decide)
      · exact noHead_cons.2 (by decide)
  | @and pre a l w1 w2 b' r h1 h2 h3 h4 ih1 ih2 =>
    intro b hb
    show RuleOk E ctx .AndClause _ _ _ _ _
    unfold RuleOk
    simp only [grammar_and, ok_choice, OkC, ok_action, ok_seq, OkS, ok_label, okR]
    have k1 := ih1 (b := w1 ++ ("AND".toList ++ (w2 ++ (b' ++ b)))) ⟨w1, _, rfl, h2.1, .inr (.inr ⟨h2.2, .inl ⟨_, rfl⟩⟩)⟩
    have k2 := ih2 hb
    refine ⟨_, rfl, .inl ⟨_, _, ⟨.node l, a, w1 ++ ("AND".toList ++ (w2 ++ (b' ++ b))), _, ⟨rfl, [], rfl, ?_⟩,
      w1 ++ ("AND".toList ++ (w2 ++ b')), rfl, .list (charVals w1), w1, "AND".toList ++ (w2 ++ (b' ++ b)), _,
      ⟨rfl, rule_space.2 ⟨rfl, rfl, h2, noHead_cons.2 (by decide)⟩⟩, "AND".toList ++ (w2 ++ b'), rfl, _, _, w2 ++ (b' ++ b), _,
      ⟨rfl, logicalAND_iff.2 ⟨rfl, rfl, rfl⟩⟩, w2 ++ b', rfl, .list (charVals w2), w2, b' ++ b, _,
      ⟨rfl, rule_space.2 ⟨rfl, rfl, h3, text_notWs h4⟩⟩, b', rfl, .node r, b', b, _, ⟨rfl, [], rfl, ?_⟩, [], by simp, rfl, rfl, rfl, rfl⟩, rfl⟩⟩
    · simpa [ruleOf] using k1
    · simpa [ruleOf] using k2
  | @orAnd pre s n h ih =>
    intro b hb
    show RuleOk E ctx .OrClause _ _ _ _ _
    unfold RuleOk
    have hs := ih (b := b) (hb.mono fun t ht => ht.elim)
    simp only [grammar_or, ok_choice, OkC, no_action, no_seq, NoS, no_label, noR, ok_label, okR]
    refine ⟨_, rfl, .inr ⟨.inr ⟨_, s, b, _, ⟨rfl, [], rfl, hs⟩, ?_⟩, .inl ⟨[], rfl, hs⟩⟩⟩
    obtain ⟨w, t, rfl, hw, ht⟩ := hb
    have hws := fEnd_notWs (p := fun _ => False) (fun t ht => ht.elim) ht
    by_cases hw0 : w = []
    · subst hw0
      exact .inl (rule_space_no.2 hws)
    · refine .inr ⟨_, w, t, _, ⟨rfl, rule_space.2 ⟨rfl, rfl, ⟨hw, hw0⟩, hws⟩⟩, .inl ?_⟩
      show No E ctx (.lit ['O', 'R'] false "\"OR\"".toList) [] _ t
      refine no_lit_head ?_
      rcases ht with rfl | ⟨u, rfl⟩ | ⟨-, ht⟩
      · exact noHead_nil
      · exact noHead_cons.2 (by decide)
      · exact ht.elim
  | @or pre a l w1 w2 b' r h1 h2 h3 h4 ih1 ih2 =>
    intro b hb
    show RuleOk E ctx .OrClause _ _ _ _ _
    unfold RuleOk
    simp only [grammar_or, ok_choice, OkC, ok_action, ok_seq, OkS, ok_label, okR]
    have k1 := ih1 (b := w1 ++ ("OR".toList ++ (w2 ++ (b' ++ b)))) ⟨w1, _, rfl, h2.1, .inr (.inr ⟨h2.2, _, rfl⟩)⟩
    have k2 := ih2 hb
    refine ⟨_, rfl, .inl ⟨_, _, ⟨.node l, a, w1 ++ ("OR".toList ++ (w2 ++ (b' ++ b))), _, ⟨rfl, [], rfl, ?_⟩,
      w1 ++ ("OR".toList ++ (w2 ++ b')), rfl, .list (charVals w1), w1, "OR".toList ++ (w2 ++ (b' ++ b)), _,
      ⟨rfl, rule_space.2 ⟨rfl, rfl, h2, noHead_cons.2 (by decide)⟩⟩, "OR".toList ++ (w2 ++ b'), rfl, _, _, w2 ++ (b' ++ b), _,
      ⟨rfl, logicalOR_iff.2 ⟨rfl, rfl, rfl⟩⟩, w2 ++ b', rfl, .list (charVals w2), w2, b' ++ b, _,
      ⟨rfl, rule_space.2 ⟨rfl, rfl, h3, text_notWs h4⟩⟩, b', rfl, .node r, b', b, _, ⟨rfl, [], rfl, ?_⟩, [], by simp, rfl, rfl, rfl, rfl⟩, rfl⟩⟩
    · simpa [ruleOf] using k1
    · simpa [ruleOf] using k2

/-! ### Whole queries -/

theorem query_iff {n : Node} : (∃ v, v = .node n ∧ RuleOk E ctx .Start [] s v s []) ↔ Query E s n := by
  unfold RuleOk
  simp only [show grammar .Start = .action .onStart1 (.seq [.label .query (.rule .Query), .rule .EOF]) from rfl,
    ok_action, ok_seq, OkS, ok_label, okR, rule_eof]
  have hq : ∀ {pre s v a b}, RuleOk E ctx .Query pre s v a b ↔ ∃ w1 q w2, Ws w1 ∧ Ws w2 ∧ NoHead IsWs b ∧ NoHead IsWs (q ++ (w2 ++ b)) ∧
      a = w1 ++ (q ++ w2) ∧ s = w1 ++ (q ++ (w2 ++ b)) ∧ RuleOk E ctx .OrClause (pre ++ w1) (q ++ (w2 ++ b)) v q (w2 ++ b) := by
    intro pre s v a b
    unfold RuleOk
    simp only [show grammar .Query = .action .onQuery1 (.seq [.rule .ws, .label .clause (.rule .OrClause), .rule .ws]) from rfl,
      ok_action, ok_seq, OkS, ok_label, okR, rule_ws]
    constructor
    · rintro ⟨_, _, ⟨_, w1, _, _, ⟨rfl, rfl, rfl, h1, h2⟩, _, rfl, v1, q, _, _, ⟨rfl, _, rfl, h3⟩, _, rfl, _, w2, _, _,
        ⟨rfl, rfl, rfl, h4, h5⟩, _, rfl, rfl, rfl, rfl, rfl⟩, hr⟩
      have e := h3.split
      subst e
      have hr' : Except.ok (v1, none) = (.ok (v, none) : ActRes) := hr
      simp only [Except.ok.injEq, Prod.mk.injEq, and_true] at hr'
      subst hr'
      exact ⟨w1, q, w2, h1, h4, h5, h2, by simp, rfl, h3⟩
    · rintro ⟨w1, q, w2, h1, h2, h3, h4, rfl, rfl, h5⟩
      exact ⟨_, _, ⟨_, w1, _, _, ⟨rfl, rfl, rfl, h1, h4⟩, q ++ w2, rfl, v, q, _, _, ⟨rfl, [], rfl, h5⟩, w2, rfl, _, w2, b, _,
        ⟨rfl, rfl, rfl, h2, h3⟩, [], by simp, rfl, rfl, rfl, rfl⟩, rfl⟩
  constructor
  · rintro ⟨_, rfl, _, _, ⟨v1, a, _, _, ⟨rfl, _, rfl, h1⟩, _, hs, _, _, _, _, ⟨rfl, rfl, rfl, rfl, rfl⟩, _, rfl, rfl, -, rfl, rfl⟩, hr⟩
    obtain ⟨w1, q, w2, k1, k2, -, -, rfl, k4, k5⟩ := hq.1 h1
    have hr' : Except.ok (v1, none) = (.ok (.node n, none) : ActRes) := hr
    simp only [Except.ok.injEq, Prod.mk.injEq, and_true] at hr'
    subst hr'
    obtain ⟨m, hm, ht⟩ := clause_sound (L := .or) k5
    cases hm
    exact ⟨w1, q, w2, k1, k2, ht, by simpa using k4⟩
  · rintro ⟨w1, q, w2, h1, h2, h3, rfl⟩
    have hf : Follow .or (w2 ++ []) := ⟨w2, [], rfl, h2, .inl rfl⟩
    refine ⟨_, rfl, _, _, ⟨.node n, w1 ++ (q ++ w2), [], _, ⟨rfl, [], rfl, hq.2 ⟨w1, q, w2, h1, h2, noHead_nil, text_notWs h3, rfl,
      by simp, clause_complete (L := .or) h3 hf⟩⟩, [], by simp, _, _, _, _, ⟨rfl, rfl, rfl, rfl, rfl⟩, [], rfl, rfl, rfl, rfl, rfl⟩, rfl⟩

/-- Accepted values of the parser. -/
theorem parse_iff {input : List Sym} {v : PV} : parse E input = some (.value v) ↔
    ∃ s : Str, input = s.map .ok ∧ RuleOk E ⟨false, []⟩ .Start [] s v s [] := by
  constructor
  · intro h
    obtain ⟨s, rfl⟩ := all_ok (parse_value_ok h)
    obtain ⟨-, l, c', fr, hb, he⟩ := parse_value h
    have hrest := start_eof hb
    rw [cur_init] at hb
    obtain ⟨a, b, rfl, hok⟩ := okJ_of_big hb he
    have hb0 : b = [] := List.map_eq_nil_iff.1 hrest
    subst hb0
    have := hok.1
    rw [List.append_nil] at this
    subst this
    exact ⟨s, rfl, fr, hok⟩
  · rintro ⟨s, rfl, g, hs, l, hb, he⟩
    obtain ⟨l', r, hb', _, hp⟩ := parse_big (E := E) (s.map .ok)
    rw [cur_init] at hb'
    obtain ⟨rfl, rfl⟩ := hb'.det hb
    rw [hp]
    unfold finish
    have : errorsOf (encErr (Cursor.init (s.map Sym.ok)) ++ l') = [] := by
      rw [errorsOf_append, cur_init, encErr_cur, he]; rfl
    rw [this]

/-- The parser accepts exactly the stated texts, with the stated trees. -/
theorem grammarOut_iff {input : List Sym} {n : Node} : grammarOut E input = some (.ok n) ↔
    ∃ s : Str, input = s.map .ok ∧ Query E s n := by
  have h1 : grammarOut E input = some (.ok n) ↔ parse E input = some (.value (.node n)) := by
    unfold grammarOut
    rw [Option.map_eq_some_iff]
    constructor
    · rintro ⟨o, ho, h⟩
      split at h
      · cases h
      · cases h; exact ho
      · cases h
      · cases h
    · intro h; exact ⟨_, h, rfl⟩
  rw [h1, parse_iff]
  constructor
  · rintro ⟨s, rfl, h⟩; exact ⟨s, rfl, query_iff.1 ⟨_, rfl, h⟩⟩
  · rintro ⟨s, rfl, h⟩
    obtain ⟨_, rfl, h⟩ := query_iff (ctx := ⟨false, []⟩) |>.2 h
    exact ⟨s, rfl, h⟩

/-- The value of an accepted text is a tree. -/
theorem parse_node {input : List Sym} {v : PV} (h : parse E input = some (.value v)) : ∃ n, v = .node n := by
  obtain ⟨s, -, h⟩ := parse_iff.1 h
  unfold RuleOk at h
  simp only [show grammar .Start = .action .onStart1 (.seq [.label .query (.rule .Query), .rule .EOF]) from rfl,
    ok_action, ok_seq, OkS, ok_label, okR, rule_eof] at h
  obtain ⟨_, _, ⟨v1, a, _, _, ⟨rfl, _, rfl, h1⟩, _, -, _, _, _, _, ⟨rfl, rfl, -, -, rfl⟩, _, rfl, rfl, -, rfl, rfl⟩, hr⟩ := h
  unfold RuleOk at h1
  simp only [show grammar .Query = .action .onQuery1 (.seq [.rule .ws, .label .clause (.rule .OrClause), .rule .ws]) from rfl,
    ok_action, ok_seq, OkS, ok_label, okR] at h1
  obtain ⟨_, _, ⟨_, w1, _, _, ⟨rfl, -⟩, _, rfl, v2, q, _, _, ⟨rfl, _, rfl, h3⟩, _, rfl, _, w2, _, _,
        ⟨rfl, -⟩, _, rfl, rfl, rfl, rfl, rfl⟩, hr2⟩ := h1
  obtain ⟨n, rfl, -⟩ := clause_sound (L := .or) h3
  have hr' : Except.ok (v1, none) = (.ok (v, none) : ActRes) := hr
  have hr2' : Except.ok (.node n, none) = (.ok (v1, none) : ActRes) := hr2
  simp only [Except.ok.injEq, Prod.mk.injEq, and_true] at hr' hr2'
  exact ⟨n, by rw [← hr', ← hr2']⟩

end Aql
