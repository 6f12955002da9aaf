import Verif.Proofs.AskTrace
import Verif.Proofs.Rounding
import Verif.Proofs.Literals
import Verif.Spec.Beginning
/-!
A run without errors over a value tests the text only at the end of something that can be completed.
-/

namespace Aql

open Spec

variable {E : Env} {ctx : Ctx} {fr fr' : VFrame} {pre s a b q : Str} {v : PV}

/-! ### Expressions that look no further than they read -/

/-- Tests only at the beginning. -/
def Shy (E : Env) (e : PExpr) : Prop := ∀ ctx fr pre s q, Ask E ctx e fr pre s q → q = pre

/-- After a match, has tested only what was matched. -/
def Tame (E : Env) (e : PExpr) : Prop := ∀ ctx fr pre s q v a b fr', Ask E ctx e fr pre s q →
  Ok E ctx e fr pre s v a b fr' → q <+: pre ++ a

theorem Shy.tame {e : PExpr} (h : Shy E e) : Tame E e := by
  intro _ _ _ _ _ _ _ _ _ h1 _
  rw [h _ _ _ _ _ h1]
  exact List.prefix_append _ _

theorem shy_lit {t w : Str} {ic : Bool} : Shy E (.lit t ic w) := fun _ _ _ _ _ h => ask_lit h
theorem shy_cls {chars : List Char} {ranges : List (Char × Char)} {ic inv : Bool} {w : Str} :
    Shy E (.cls chars ranges ic inv w) := fun _ _ _ _ _ h => ask_cls h
theorem shy_any : Shy E .any := fun _ _ _ _ _ h => ask_any h
theorem shy_not {e : PExpr} (h : Shy E e) : Shy E (.not e) := fun _ _ _ _ _ k => h _ _ _ _ _ (ask_not k)
theorem shy_rule {x : Rule} (h : Shy E (grammar x)) : Shy E (.rule x) := fun _ _ _ _ _ k => h _ _ _ _ _ (ask_rule k)

theorem shy_choice {es : List PExpr} (h : ∀ e ∈ es, Shy E e) : Shy E (.choice es) := by
  intro ctx fr pre s q k
  replace k := ask_choice k
  induction es with
  | nil => exact k.elim
  | cons e es ih =>
    rcases k with k | ⟨-, k⟩
    · exact h e (by simp) _ _ _ _ _ k
    · exact ih (fun e he => h e (by simp [he])) k

/-- A test that reads nothing, then one more. -/
theorem shy_then {e e2 : PExpr} (h : Shy E e) (h2 : Shy E e2) : Shy E (.seq [.not e, e2]) := by
  intro ctx fr pre s q k
  rcases ask_seq k with k | ⟨_, _, _, _, h0, k | ⟨_, _, _, _, -, k⟩⟩
  · exact shy_not h _ _ _ _ _ k
  · obtain ⟨-, -, rfl, -⟩ := ok_not.1 h0
    rw [h2 _ _ _ _ _ k, List.append_nil]
  · exact k.elim

theorem tame_rule {x : Rule} (h : Tame E (grammar x)) : Tame E (.rule x) := by
  intro _ _ _ _ _ _ _ _ _ k1 k2
  obtain ⟨-, _, k2⟩ := ok_rule.1 k2
  exact h _ _ _ _ _ _ _ _ _ (ask_rule k1) k2

theorem tame_seq {es : List PExpr} (h : ∀ e ∈ es, Tame E e) : Tame E (.seq es) := by
  intro ctx fr pre s q v a b fr' k1 k2
  replace k1 := ask_seq k1
  rw [ok_seq] at k2
  generalize ([] : List PV) = acc at k2
  induction es generalizing fr pre s a acc with
  | nil => exact k1.elim
  | cons e es ih =>
    obtain ⟨_, a1, b1, _, k2, a2, rfl, k3⟩ := k2
    rcases k1 with k1 | ⟨_, _, _, _, k4, k1⟩
    · exact (h e (by simp) _ _ _ _ _ _ _ _ _ k1 k2).trans (by rw [← List.append_assoc]; exact List.prefix_append _ _)
    · obtain ⟨-, rfl, rfl, rfl⟩ := k2.det k4
      rw [← List.append_assoc]
      exact ih (fun e he => h e (by simp [he])) _ _ _ _ k1 _ k3

theorem tame_or {e1 e2 : PExpr} (h1 : Shy E e1) (h2 : Tame E e2) : Tame E (.choice [e1, e2]) := by
  intro ctx fr pre s q v a b fr' k1 k2
  rcases ask_choice k1 with k1 | ⟨kn, k1 | ⟨-, k1⟩⟩
  · rw [h1 _ _ _ _ _ k1]
    exact List.prefix_append _ _
  · rw [ok_choice] at k2
    obtain ⟨-, ⟨_, k2⟩ | ⟨-, ⟨_, k2⟩ | k2⟩⟩ := k2
    · exact (k2.clash kn).elim
    · exact h2 _ _ _ _ _ _ _ _ _ k1 k2
    · exact k2.2.elim
  · exact k1.elim

theorem tame_quotedElem : Tame E quotedElem := by
  refine tame_or (shy_then (shy_rule shy_cls) shy_any) (tame_seq ?_)
  simp only [List.forall_mem_cons]
  refine ⟨shy_lit.tame, tame_rule (tame_or (shy_rule shy_cls) (tame_rule (tame_seq ?_))), by simp⟩
  simp only [List.forall_mem_cons]
  exact ⟨shy_lit.tame, (shy_rule (x := .HexDigit) shy_cls).tame, (shy_rule (x := .HexDigit) shy_cls).tame, (shy_rule (x := .HexDigit) shy_cls).tame, (shy_rule (x := .HexDigit) shy_cls).tame, by simp⟩

theorem tame_regexChar : Tame E (.rule .RegexChar) := by
  refine tame_rule (tame_or (shy_then (shy_choice ?_) shy_any) (tame_seq ?_))
  · simp only [List.forall_mem_cons]
    exact ⟨shy_lit, shy_lit, shy_rule shy_lit, by simp⟩
  · simp only [List.forall_mem_cons]
    refine ⟨shy_lit.tame, Shy.tame (shy_rule (x := .RegexEscape) (shy_then (shy_choice ?_) shy_any)), by simp⟩
    simp only [List.forall_mem_cons]
    exact ⟨shy_rule shy_lit, shy_rule (shy_not shy_any), by simp⟩

/-- Something between two delimiters. -/
theorem ask_between {c : Char} {w : Str} {e z : PExpr} (ht : Tame E e)
    (hs : ∀ {pre b q}, Ask E ctx e [] pre (c :: b) q → q = pre)
    (hz : ∀ {fr pre s q}, Ask E ctx z fr pre s q → q = pre)
    (ho : ∀ {fr pre s v a b fr'}, Ok E ctx z fr pre s v a b fr' → s = c :: b)
    (h : Ask E ctx (.seq [.lit [c] false w, .star e, z]) fr pre s q)
    (hk : Ok E ctx (.seq [.lit [c] false w, .star e, z]) fr pre s v a b fr') : ∃ a', a = a' ++ [c] ∧ q <+: pre ++ a' := by
  simp only [ok_seq, OkS] at hk
  obtain ⟨_, a0, _, _, k1, _, rfl, _, t, _, _, k2, _, rfl, _, u, b2, _, k3, _, rfl, rfl, rfl, -⟩ := hk
  have hu : u = [c] := by
    have h2 := k3.1
    rw [ho k3] at h2
    have h3 : u ++ b2 = [c] ++ b2 := by simpa using h2.symm
    exact List.append_cancel_right h3
  subst hu
  refine ⟨a0 ++ t, by simp, ?_⟩
  rcases ask_seq h with h | ⟨_, _, _, _, l1, h | ⟨_, _, _, _, l2, h | ⟨_, _, _, _, l3, h⟩⟩⟩
  · rw [ask_lit h]
    exact List.prefix_append _ _
  · obtain ⟨-, rfl, rfl, rfl⟩ := k1.det l1
    obtain ⟨x, y, hr, hx0⟩ := ask_star h
    obtain ⟨rfl, vs, -, k2⟩ := ok_star.1 k2
    obtain ⟨vs', t', rfl, kr⟩ := row_prefix hr k2
    cases kr with
    | nil hn =>
      have := ho k3
      subst this
      rw [hs hx0]
      simp
    | @cons _ _ a1 _ a2 _ _ _ _ h1 kr =>
      obtain ⟨x2, hx⟩ := ht _ _ _ _ _ _ _ _ _ hx0 h1
      refine ⟨x2 ++ a2, ?_⟩
      rw [← List.append_assoc, hx]
      simp
  · obtain ⟨-, rfl, rfl, rfl⟩ := k1.det l1
    obtain ⟨-, rfl, rfl, rfl⟩ := k2.det l2
    rw [hz h]
    simp
  · exact h.elim

theorem ask_elem_quote {x : Str} (h : Ask E ctx quotedElem [] pre ('"' :: x) q) : q = pre := by
  rcases ask_choice h with h | ⟨-, h | ⟨-, h⟩⟩
  · exact shy_then (shy_rule shy_cls) shy_any _ _ _ _ _ h
  · rcases ask_seq h with h | ⟨_, _, _, _, h0, -⟩
    · exact ask_lit h
    · obtain ⟨-, -, h, -⟩ := ok_lit1.1 h0
      cases h
  · exact h.elim

theorem ask_char_slash {x : Str} (h : Ask E ctx (.rule .RegexChar) [] pre ('/' :: x) q) : q = pre := by
  rcases ask_choice (ask_rule h) with h | ⟨-, h | ⟨-, h⟩⟩
  · refine shy_then (shy_choice ?_) shy_any _ _ _ _ _ h
    simp only [List.forall_mem_cons]
    exact ⟨shy_lit, shy_lit, shy_rule shy_lit, by simp⟩
  · rcases ask_seq h with h | ⟨_, _, _, _, h0, -⟩
    · exact ask_lit h
    · obtain ⟨-, -, h, -⟩ := ok_lit1.1 h0
      cases h
  · exact h.elim

/-- A throw whose handler is a state rule is not part of a run without errors. -/
theorem ask_throw {x : FailLabel} {y : Rule} {st : StateCode} {rs : List (FailLabel × PExpr)}
    (hx : grammar y = .state st) (hc : ctx.recov = (x, .rule y) :: rs) (h : Ask E ctx (.throw x) fr pre s q) : False := by
  rcases ask_done h with ⟨_, _, _, _, h⟩ | h
  · exact ok_throw ⟨_, hx⟩ hc h
  · exact no_throw ⟨_, hx⟩ hc h

theorem ask_in_quoted (h : Ask E ctx (.rule .QuotedValue) fr pre s q) :
    q = pre ∨ ∃ v a b, RuleOk E ctx .QuotedValue pre s v a b ∧ ∃ a', a = a' ++ ['"'] ∧ q <+: pre ++ a' := by
  rcases ask_done h with ⟨v, a, b, g, hk⟩ | hn
  · right
    have hr := (okR.1 hk).2
    refine ⟨v, a, b, hr, ?_⟩
    obtain ⟨_, hr⟩ := hr
    replace h := ask_rule h
    rw [grammar_quoted] at h hr
    replace h := ask_recover h
    rw [ok_recover] at hr
    have hc : ({ ctx with recov := (.errUntermStr, .rule .ErrUntermStr) :: ctx.recov } : Ctx).recov =
      (.errUntermStr, .rule .ErrUntermStr) :: ctx.recov := rfl
    generalize ({ ctx with recov := (.errUntermStr, .rule .ErrUntermStr) :: ctx.recov } : Ctx) = cx at h hr hc
    rw [ok_action] at hr
    obtain ⟨_, hr, -⟩ := hr
    refine ask_between tame_quotedElem ask_elem_quote ?_ ?_ (ask_action h) hr
    · intro fr pre s q h
      rcases ask_choice (ask_rule h) with h | ⟨-, h | ⟨-, h⟩⟩
      · exact ask_lit h
      · exact (ask_throw rfl hc h).elim
      · exact h.elim
    · intro fr pre s v a b fr' h
      exact ((rule_endingQuote hc).1 (okR.1 h).2).2.1
  · left
    have hh := quoted_head hn
    replace h := ask_rule h
    rw [grammar_quoted] at h
    rcases ask_seq (ask_action (ask_recover h)) with h | ⟨_, _, _, _, h0, -⟩
    · exact ask_lit h
    · obtain ⟨-, -, rfl, -⟩ := ok_lit1.1 h0
      exact (hh _ _ rfl rfl).elim

theorem ask_quoted (h : Ask E ctx (.rule .QuotedValue) fr pre s q) :
    q = pre ∨ ∃ v a b, RuleOk E ctx .QuotedValue pre s v a b ∧ q <+: pre ++ a := by
  rcases ask_in_quoted h with h | ⟨v, a, b, h1, a', rfl, h2⟩
  · exact .inl h
  · exact .inr ⟨v, _, b, h1, h2.trans (by simp)⟩

theorem ask_in_regex (h : Ask E ctx (.rule .RegexValue) fr pre s q) :
    q = pre ∨ ∃ v a b, RuleOk E ctx .RegexValue pre s v a b ∧ ∃ a', a = a' ++ ['/'] ∧ q <+: pre ++ a' := by
  rcases ask_done h with ⟨v, a, b, g, hk⟩ | hn
  · right
    have hr := (okR.1 hk).2
    refine ⟨v, a, b, hr, ?_⟩
    obtain ⟨_, hr⟩ := hr
    replace h := ask_rule h
    rw [show grammar .RegexValue = .recover .errUntermRegex (.action .onRegexValue2
        (.seq [.lit ['/'] false "\"/\"".toList, .star (.rule .RegexChar), .rule .EndingSlash]))
      (.rule .ErrUntermRegex) from rfl] at h hr
    replace h := ask_recover h
    rw [ok_recover] at hr
    have hc : ({ ctx with recov := (.errUntermRegex, .rule .ErrUntermRegex) :: ctx.recov } : Ctx).recov =
      (.errUntermRegex, .rule .ErrUntermRegex) :: ctx.recov := rfl
    generalize ({ ctx with recov := (.errUntermRegex, .rule .ErrUntermRegex) :: ctx.recov } : Ctx) = cx at h hr hc
    rw [ok_action] at hr
    obtain ⟨_, hr, -⟩ := hr
    refine ask_between tame_regexChar ask_char_slash ?_ ?_ (ask_action h) hr
    · intro fr pre s q h
      rcases ask_choice (ask_rule h) with h | ⟨-, h | ⟨-, h⟩⟩
      · exact ask_lit h
      · exact (ask_throw rfl hc h).elim
      · exact h.elim
    · intro fr pre s v a b fr' h
      exact ((rule_endingSlash hc).1 (okR.1 h).2).2.1
  · left
    have hh := regex_head hn
    rcases ask_seq (ask_action (ask_recover (ask_rule h))) with h | ⟨_, _, _, _, h0, -⟩
    · exact ask_lit h
    · obtain ⟨-, -, rfl, -⟩ := ok_lit1.1 h0
      exact (hh _ _ rfl rfl).elim

theorem ask_regex (h : Ask E ctx (.rule .RegexValue) fr pre s q) :
    q = pre ∨ ∃ v a b, RuleOk E ctx .RegexValue pre s v a b ∧ q <+: pre ++ a := by
  rcases ask_in_regex h with h | ⟨v, a, b, h1, a', rfl, h2⟩
  · exact .inl h
  · exact .inr ⟨v, _, b, h1, h2.trans (by simp)⟩

/-! ### Shapes -/

theorem gen_nil : Gen E (.seq []) a ↔ a = [] := by
  constructor
  · intro h; cases h; rfl
  · rintro rfl; exact .nil

theorem gen_cons {e : PExpr} {es : List PExpr} : Gen E (.seq (e :: es)) a ↔
    ∃ a1 a2, Gen E e a1 ∧ Gen E (.seq es) a2 ∧ a = a1 ++ a2 := by
  constructor
  · intro h; cases h with | cons h1 h2 => exact ⟨_, _, h1, h2, rfl⟩
  · rintro ⟨_, _, h1, h2, rfl⟩; exact .cons h1 h2

theorem gen_rule {x : Rule} : Gen E (.rule x) a ↔ Gen E (grammar x) a := by
  constructor
  · intro h; cases h with | rule h => exact h
  · exact .rule

theorem gen_opt {e : PExpr} : Gen E (.opt e) a ↔ a = [] ∨ Gen E e a := by
  constructor
  · intro h
    cases h with
    | none => exact .inl rfl
    | some h => exact .inr h
  · rintro (rfl | h)
    · exact .none
    · exact .some h

theorem gen_choice {es : List PExpr} : Gen E (.choice es) a ↔ ∃ e ∈ es, Gen E e a := by
  constructor
  · intro h; cases h with | choice h1 h2 => exact ⟨_, h1, h2⟩
  · rintro ⟨_, h1, h2⟩; exact .choice h1 h2

theorem gen_lit1 {c : Char} {w : Str} : Gen E (.lit [c] false w) a ↔ a = [c] := by
  constructor
  · intro h
    cases h with
    | lit h => simpa using h
  · rintro rfl; exact .lit (by simp)

theorem gen_litI {c : Char} {w : Str} : Gen E (.lit [c] true w) a ↔ ∃ x, a = [x] ∧ goLower E x = c := by
  constructor
  · intro h
    cases h with
    | lit h =>
      cases a with
      | nil => simp at h
      | cons x a =>
        simp only [if_true, List.map_cons, List.cons.injEq, List.map_eq_nil_iff] at h
        obtain ⟨h, rfl⟩ := h
        exact ⟨x, rfl, h⟩
  · rintro ⟨x, rfl, rfl⟩; exact .lit (by simp)

theorem gen_digit : Gen E digit a ↔ ∃ c, a = [c] ∧ Dig c := by
  constructor
  · intro h
    cases h with
    | cls h => exact ⟨_, rfl, cls_dig.1 h⟩
  · rintro ⟨c, rfl, h⟩; exact .cls (cls_dig.2 h)

theorem gen_digits (h : Gen E (.plus digit) a) : a ≠ [] ∧ AllDigits a := by
  generalize he : PExpr.plus digit = e at h
  induction h with
  | one h _ =>
    cases he
    obtain ⟨c, rfl, hd⟩ := gen_digit.1 h
    exact ⟨by simp, allDigits_one hd⟩
  | more h _ _ ih =>
    cases he
    obtain ⟨c, rfl, hd⟩ := gen_digit.1 h
    obtain ⟨-, ih⟩ := ih rfl
    refine ⟨by simp, fun x hx => ?_⟩
    rcases List.mem_append.1 hx with hx | hx
    · exact allDigits_one hd x hx
    · exact ih x hx
  | _ => cases he

theorem gen_digit2 (h : Gen E (.rule .Digit2) a) : AllDigits a ∧ a.length = 2 := by
  rw [gen_rule] at h
  simp only [grammar, gen_cons, gen_nil, gen_digit] at h
  obtain ⟨_, _, ⟨c, rfl, hc⟩, ⟨_, _, ⟨d, rfl, hd⟩, rfl, rfl⟩, rfl⟩ := h
  refine ⟨?_, rfl⟩
  intro x hx
  simp only [List.append_nil, List.cons_append, List.nil_append, List.mem_cons, List.not_mem_nil, or_false] at hx
  rcases hx with rfl | rfl <;> assumption

theorem gen_digit4 (h : Gen E (.rule .Digit4) a) : AllDigits a ∧ a.length = 4 := by
  rw [gen_rule] at h
  simp only [grammar, gen_cons, gen_nil, gen_digit] at h
  obtain ⟨_, _, ⟨c, rfl, hc⟩, ⟨_, _, ⟨d, rfl, hd⟩, ⟨_, _, ⟨e, rfl, he⟩, ⟨_, _, ⟨f, rfl, hf⟩, rfl, rfl⟩, rfl⟩, rfl⟩, rfl⟩ := h
  refine ⟨?_, rfl⟩
  intro x hx
  simp only [List.append_nil, List.cons_append, List.nil_append, List.mem_cons, List.not_mem_nil, or_false] at hx
  rcases hx with rfl | rfl | rfl | rfl <;> assumption

theorem gen_two {x : Rule} (hx : grammar x = .rule .Digit2) (h : Gen E (.rule x) a) : AllDigits a ∧ a.length = 2 := by
  rw [gen_rule, hx] at h
  exact gen_digit2 h

theorem gen_date (h : Gen E (.rule .fullDate) a) : DateShape a := by
  rw [gen_rule] at h
  simp only [show grammar .fullDate = .seq [.rule .dateFullyear, .lit ['-'] false "\"-\"".toList, .rule .dateMonth,
      .lit ['-'] false "\"-\"".toList, .rule .dateMday] from rfl, gen_cons, gen_nil, gen_lit1] at h
  obtain ⟨a1, _, h1, ⟨_, _, rfl, ⟨a2, _, h2, ⟨_, _, rfl, ⟨a3, _, h3, rfl, rfl⟩, rfl⟩, rfl⟩, rfl⟩, rfl⟩ := h
  rw [gen_rule] at h1
  obtain ⟨d1, l1⟩ := gen_digit4 h1
  obtain ⟨d2, l2⟩ := gen_two rfl h2
  obtain ⟨d3, l3⟩ := gen_two rfl h3
  exact ⟨a1, a2, a3, d1, l1, d2, l2, d3, l3, by simp⟩

theorem gen_zone (h : Gen E (.rule .timeOffset) a) : ZoneShape E a := by
  rw [gen_rule] at h
  simp only [show grammar .timeOffset = .choice [.lit ['z'] true "\"Z\"i".toList, .rule .timeNumoffset] from rfl, gen_choice,
    List.mem_cons, List.not_mem_nil, or_false] at h
  obtain ⟨_, rfl | rfl, h⟩ := h
  · obtain ⟨c, rfl, hd⟩ := gen_litI.1 h
    exact .inl ⟨c, hd, rfl⟩
  · rw [gen_rule] at h
    simp only [show grammar .timeNumoffset = .seq [.choice [.lit ['+'] false "\"+\"".toList, .lit ['-'] false "\"-\"".toList],
      .rule .timeHour, .lit [':'] false "\":\"".toList, .rule .timeMinute] from rfl, gen_cons, gen_nil, gen_lit1, gen_choice,
      List.mem_cons, List.not_mem_nil, or_false] at h
    obtain ⟨a1, _, h1, ⟨a2, _, h2, ⟨_, _, rfl, ⟨a3, _, h3, rfl, rfl⟩, rfl⟩, rfl⟩, rfl⟩ := h
    obtain ⟨d2, l2⟩ := gen_two rfl h2
    obtain ⟨d3, l3⟩ := gen_two rfl h3
    obtain ⟨_, rfl | rfl, h1⟩ := h1
    · rw [gen_lit1] at h1
      subst h1
      exact .inr ⟨'+', a2, a3, .inl rfl, d2, l2, d3, l3, by simp⟩
    · rw [gen_lit1] at h1
      subst h1
      exact .inr ⟨'-', a2, a3, .inr rfl, d2, l2, d3, l3, by simp⟩

theorem gen_stamp (h : Gen E (.rule .dateTime) a) : StampShape E a := by
  rw [gen_rule] at h
  simp only [show grammar .dateTime = .seq [.rule .fullDate, .choice [.lit ['t'] true "\"T\"i".toList,
        .lit [' '] false "\" \"".toList], .rule .fullTime] from rfl, gen_cons, gen_nil, gen_choice, List.mem_cons,
        List.not_mem_nil, or_false] at h
  obtain ⟨d, _, h1, ⟨c, _, h2, ⟨t, _, h3, rfl, rfl⟩, rfl⟩, rfl⟩ := h
  have hc : ∃ x, c = [x] ∧ (goLower E x = 't' ∨ x = ' ') := by
    obtain ⟨_, rfl | rfl, h2⟩ := h2
    · obtain ⟨x, rfl, h⟩ := gen_litI.1 h2
      exact ⟨x, rfl, .inl h⟩
    · rw [gen_lit1] at h2
      exact ⟨_, h2, .inr rfl⟩
  obtain ⟨x, rfl, hx⟩ := hc
  rw [gen_rule] at h3
  simp only [show grammar .fullTime = .seq [.rule .partialTime, .rule .timeOffset] from rfl, gen_cons, gen_nil] at h3
  obtain ⟨t1, _, h3, ⟨z, _, h4, rfl, rfl⟩, rfl⟩ := h3
  rw [gen_rule] at h3
  simp only [show grammar .partialTime = .seq [.rule .timeHour, .lit [':'] false "\":\"".toList, .rule .timeMinute,
      .lit [':'] false "\":\"".toList, .rule .timeSecond, .opt (.rule .timeSecfrac)] from rfl, gen_cons, gen_nil, gen_lit1] at h3
  obtain ⟨a1, _, k1, ⟨_, _, rfl, ⟨a2, _, k2, ⟨_, _, rfl, ⟨a3, _, k3, ⟨f, _, k4, rfl, rfl⟩, rfl⟩, rfl⟩, rfl⟩, rfl⟩, rfl⟩ := h3
  obtain ⟨d1, l1⟩ := gen_two rfl k1
  obtain ⟨d2, l2⟩ := gen_two rfl k2
  obtain ⟨d3, l3⟩ := gen_two rfl k3
  refine ⟨d, x, a1, a2, a3, f, z, gen_date h1, hx, d1, l1, d2, l2, d3, l3, ?_, gen_zone h4, by simp⟩
  rw [gen_opt] at k4
  rcases k4 with rfl | h
  · exact .inl rfl
  · right
    rw [gen_rule] at h
    simp only [grammar, gen_cons, gen_nil, gen_lit1] at h
    obtain ⟨_, _, rfl, ⟨ds, _, hz, rfl, rfl⟩, rfl⟩ := h
    obtain ⟨h1, h2⟩ := gen_digits hz
    exact ⟨ds, h1, h2, by simp⟩

theorem gen_optDigit (h : Gen E (.opt digit) a) : a.length ≤ 1 ∧ AllDigits a := by
  rcases gen_opt.1 h with rfl | h
  · exact ⟨by simp, by intro c hc; cases hc⟩
  · obtain ⟨c, rfl, hd⟩ := gen_digit.1 h
    exact ⟨by simp, allDigits_one hd⟩

theorem gen_octet (h : Gen E (.rule .Octet) a) : Digits 3 a := by
  rw [gen_rule] at h
  simp only [grammar, gen_cons, gen_nil, gen_digit] at h
  obtain ⟨_, _, ⟨c, rfl, hc⟩, ⟨d, _, hd, ⟨e, _, he, rfl, rfl⟩, rfl⟩, rfl⟩ := h
  obtain ⟨l1, d1⟩ := gen_optDigit hd
  obtain ⟨l2, d2⟩ := gen_optDigit he
  refine ⟨by simp, by simp; omega, ?_⟩
  intro x hx
  simp only [List.append_nil, List.cons_append, List.nil_append, List.mem_cons, List.mem_append] at hx
  rcases hx with rfl | hx | hx
  · exact hc
  · exact d1 x hx
  · exact d2 x hx

theorem gen_block (h : Gen E (.rule .CIDRBlock) a) : ∃ e, Digits 2 e ∧ a = '/' :: e := by
  rw [gen_rule] at h
  simp only [grammar, gen_cons, gen_nil, gen_digit, gen_lit1] at h
  obtain ⟨_, _, rfl, ⟨_, _, ⟨c, rfl, hc⟩, ⟨d, _, hd, rfl, rfl⟩, rfl⟩, rfl⟩ := h
  obtain ⟨l1, d1⟩ := gen_optDigit hd
  refine ⟨c :: d, ⟨by simp, by simp; omega, ?_⟩, by simp⟩
  intro x hx
  rcases List.mem_cons.1 hx with rfl | hx
  · exact hc
  · exact d1 x hx

theorem gen_net (h : Gen E ipExpr a) : NetShape a := by
  unfold ipExpr at h
  simp only [gen_cons, gen_nil, gen_lit1] at h
  obtain ⟨a1, _, h1, ⟨_, _, rfl, ⟨a2, _, h2, ⟨_, _, rfl, ⟨a3, _, h3, ⟨_, _, rfl, ⟨a4, _, h4, ⟨f, _, h5, rfl, rfl⟩, rfl⟩, rfl⟩, rfl⟩,
    rfl⟩, rfl⟩, rfl⟩, rfl⟩ := h
  refine ⟨a1, a2, a3, a4, f, gen_octet h1, gen_octet h2, gen_octet h3, gen_octet h4, ?_, by simp⟩
  rcases gen_opt.1 h5 with rfl | h5
  · exact .inl rfl
  · exact .inr (gen_block h5)

/-- Decide that an expression is full by going through it. -/
macro "full" : tactic => `(tactic| (
  repeat' first
    | refine Full.cls (c := '0') ?_; (simp [clsMatch]; done)
    | refine Full.rule ?_
    | refine Full.plus ?_
    | refine Full.opt ?_
    | refine Full.seq ?_
    | refine Full.choice (by simp) ?_
    | exact fun _ h => absurd h List.not_mem_nil
    | refine List.forall_mem_cons.2 ⟨?_, ?_⟩
    | refine Full.lit (a := ['t']) ?_; (simp [goLower_ascii, asciiLower]; done)
    | refine Full.lit (a := ['z']) ?_; (simp [goLower_ascii, asciiLower]; done)
    | refine Full.lit (a := _) (by simp only [Bool.false_eq_true, if_false, List.map_id']; rfl)
    ))

theorem full_time : Full E (.choice [.rule .dateTime, .rule .fullDate]) := by full
theorem full_ip : Full E ipExpr := by unfold ipExpr; full

/-! ### Numbers -/

theorem tame_digits : Tame E (.plus digit) := by
  intro ctx fr pre s q v a b fr' h hk
  obtain ⟨x, y, hr, h1⟩ := ask_plus h
  obtain ⟨-, vs, -, hk, -⟩ := ok_plus.1 hk
  obtain ⟨_, c, rfl, -⟩ := row_prefix hr hk
  rw [ask_cls h1, ← List.append_assoc]
  exact List.prefix_append _ _

theorem tame_sign {w : Str} : Tame E (.opt (.lit ['-'] false w)) := by
  intro ctx fr pre s q v a b fr' h hk
  rw [ask_lit (ask_opt h)]
  exact List.prefix_append _ _

theorem tame_float : Tame E (.seq [.opt (.lit ['-'] false "\"-\"".toList), .plus digit, .lit ['.'] false "\".\"".toList,
    .plus digit]) := by
  refine tame_seq ?_
  simp only [List.forall_mem_cons]
  exact ⟨tame_sign, tame_digits, shy_lit.tame, tame_digits, by simp⟩

theorem tame_int : Tame E (.seq [.opt (.lit ['-'] false "\"-\"".toList), .plus digit]) := by
  refine tame_seq ?_
  simp only [List.forall_mem_cons]
  exact ⟨tame_sign, tame_digits, by simp⟩

theorem lit_one : Lit E pre ['1'] (.int 1 ['1'] (posAt pre ['1'])) :=
  .int (m := []) (a := ['1']) (.inl rfl) (by simp) (by intro c hc; simp at hc; subst hc; decide) rfl
    ⟨[], false, ['1'], .none, by simp, by intro c hc; simp at hc; subst hc; decide, rfl, by decide⟩ (by decide) (by decide)

theorem lit_minus : Lit E pre ['-', '1'] (.int (-1) ['-', '1'] (posAt pre ['-', '1'])) :=
  .int (m := ['-']) (a := ['1']) (.inr rfl) (by simp) (by intro c hc; simp at hc; subst hc; decide) rfl
    ⟨['-'], true, ['1'], .minus, by simp, by intro c hc; simp at hc; subst hc; decide, rfl, by decide⟩ (by decide) (by decide)

/-- Within a literal, or within something that has the shape of a time or a network. -/
def Inside (E : Env) (pre q : Str) : Prop :=
  (∃ t v, Lit E pre t v ∧ q <+: pre ++ t) ∨
  ∃ x y, q = pre ++ x ∧ (StampShape E (x ++ y) ∨ DateShape (x ++ y) ∨ NetShape (x ++ y))

theorem inside_here : Inside E pre pre := .inl ⟨_, _, lit_one, List.prefix_append _ _⟩

theorem inside_ask {e : PExpr} (hf : Full E e) (hs : ∀ {a}, Gen E e a → StampShape E a ∨ DateShape a ∨ NetShape a)
    (h : Ask E ctx e fr pre s q) : Inside E pre q := by
  obtain ⟨x, y, rfl, hg⟩ := hf.ask h
  exact .inr ⟨x, y, rfl, hs hg⟩

theorem ask_time (h : Ask E ctx (.rule .Timestamp) fr pre s q) : Inside E pre q := by
  refine inside_ask full_time ?_ (ask_action (ask_rule h))
  intro a h
  obtain ⟨e, he, h⟩ := gen_choice.1 h
  simp only [List.mem_cons, List.not_mem_nil, or_false] at he
  rcases he with rfl | rfl
  · exact .inl (gen_stamp h)
  · exact .inr (.inl (gen_date h))

theorem ask_ip (h : Ask E ctx (.rule .IPValue) fr pre s q) : Inside E pre q :=
  inside_ask full_ip (fun h => .inr (.inr (gen_net h))) (ask_action (ask_rule h))

/-- An integer may be continued as a number with a point. -/
theorem lit_point {m d : Str} {n : Int} (hm : Minus m) (hd : d ≠ []) (hd2 : AllDigits d)
    (hi : IntText (m ++ d) n) (h1 : -(2 ^ 63 : Int) ≤ n) (h2 : n < 2 ^ 63) :
    ∃ y, Lit E pre (m ++ (d ++ '.' :: ['0'])) y := by
  have h0 : AllDigits ['0'] := by intro c hc; simp at hc; subst hc; decide
  have hs : ∃ neg, SignText m neg := by
    rcases hm with rfl | rfl
    · exact ⟨_, .none⟩
    · exact ⟨_, .minus⟩
  obtain ⟨neg, hs⟩ := hs
  have hd1 : DecText (m ++ d) ((if neg then -1 else 1) * ((digitsValue d : ℚ) + (digitsValue [] : ℚ) / 10 ^ 0) * (10 : ℚ) ^ (0 : Int)) :=
    ⟨m, neg, d, [], [], [], 0, hs, hd2, .none, .inl hd, .none, by simp, rfl⟩
  have e := Option.some.inj (((decimalValue_iff _ _).2 hd1).symm.trans ((decimalValue_iff _ _).2 (intText_decText hi)))
  have hd3 : DecText (m ++ (d ++ '.' :: ['0'])) ((if neg then -1 else 1) *
      ((digitsValue d : ℚ) + (digitsValue ['0'] : ℚ) / 10 ^ (['0'] : Str).length) * (10 : ℚ) ^ (0 : Int)) :=
    ⟨m, neg, d, '.' :: ['0'], ['0'], [], 0, hs, hd2, .point h0, .inl hd, .none, by simp, rfl⟩
  have e2 : (if neg then -1 else 1) * ((digitsValue d : ℚ) + (digitsValue ['0'] : ℚ) / 10 ^ (['0'] : Str).length) *
      (10 : ℚ) ^ (0 : Int) = (n : ℚ) := by
    rw [← e]
    simp [digitsValue]
  rw [e2] at hd3
  refine ⟨_, .float hm hd hd2 (by simp) h0 rfl hd3 (toF64_small ?_)⟩
  rw [abs_le]
  constructor
  · exact_mod_cast h1
  · exact_mod_cast h2.le

theorem ask_sign {w : Str} (h : Ask E ctx (.opt (.lit ['-'] false w)) fr pre s q) : q = pre := ask_lit (ask_opt h)

theorem ask_digits (h : Ask E ctx (.plus digit) fr pre s q) :
    (q = pre ∧ No E ctx (.plus digit) fr pre s) ∨ ∃ v a b, Ok E ctx (.plus digit) fr pre s v a b fr ∧ q <+: pre ++ a := by
  rcases ask_done h with ⟨v, a, b, g, hk⟩ | (hn : No E ctx (.plus digit) fr pre s)
  · have hg := (plus_digits hk).1
    subst hg
    exact .inr ⟨v, a, b, hk, tame_digits _ _ _ _ _ _ _ _ _ h hk⟩
  · obtain ⟨x, y, hr, h1⟩ := ask_plus h
    rw [no_plus] at hn
    cases hr with
    | nil => exact .inl ⟨by rw [ask_cls h1, List.append_nil], no_plus.2 hn⟩
    | cons h2 _ => exact (h2.clash hn).elim

theorem grammar_int : grammar .IntValue = .action .onIntValue1 (.seq [.opt (.lit ['-'] false "\"-\"".toList), .plus digit]) := rfl
theorem grammar_float : grammar .FloatValue = .action .onFloatValue1 (.seq [.opt (.lit ['-'] false "\"-\"".toList), .plus digit,
    .lit ['.'] false "\".\"".toList, .plus digit]) := rfl

theorem inside_sign {w : Str} (h : Ok E ctx (.opt (.lit ['-'] false w)) fr pre s v a b fr') : Inside E pre (pre ++ a) := by
  rcases minus_of h with rfl | rfl
  · rw [List.append_nil]; exact inside_here
  · exact .inl ⟨_, _, lit_minus, by simp⟩

theorem ask_int (h : Ask E ctx (.rule .IntValue) fr pre s q) : Inside E pre q := by
  rcases ask_done h with ⟨v, a, b, g, hk⟩ | hn
  · obtain ⟨x, -, hx⟩ := int_lit (okR.1 hk).2
    refine .inl ⟨_, _, hx, ?_⟩
    obtain ⟨-, _, hk⟩ := ok_rule.1 hk
    rw [grammar_int, ok_action] at hk
    obtain ⟨_, hk, -⟩ := hk
    exact tame_int _ _ _ _ _ _ _ _ _ (ask_action (ask_rule h)) hk
  · have hn := noR.1 hn
    unfold RuleNo at hn
    rw [grammar_int, no_action] at hn
    rcases ask_seq (ask_action (ask_rule h)) with h | ⟨_, _, _, _, h0, h | ⟨_, _, _, _, h1, h⟩⟩
    · rw [ask_sign h]; exact inside_here
    · rcases ask_digits h with ⟨rfl, -⟩ | ⟨_, _, _, h1, -⟩
      · exact inside_sign h0
      · simp only [no_seq, NoS, no_opt] at hn
        obtain hn | ⟨_, _, _, _, k0, hn | ⟨_, _, _, _, -, hn⟩⟩ := hn
        · exact hn.elim
        · obtain ⟨-, rfl, rfl, rfl⟩ := h0.det k0
          exact (h1.clash hn).elim
        · exact hn.elim
    · exact h.elim

/-- The rules for numbers, in their order. -/
theorem ask_float (h : Ask E ctx (.rule .FloatValue) fr pre s q)
    (hi : RuleNo E ctx .FloatValue pre s → (∃ v a b, RuleOk E ctx .IntValue pre s v a b) ∨ RuleNo E ctx .IntValue pre s) :
    Inside E pre q := by
  rcases ask_done h with ⟨v, a, b, g, hk⟩ | hn
  · obtain ⟨x, -, hx⟩ := float_lit (okR.1 hk).2
    refine .inl ⟨_, _, hx, ?_⟩
    obtain ⟨-, _, hk⟩ := ok_rule.1 hk
    rw [grammar_float, ok_action] at hk
    obtain ⟨_, hk, -⟩ := hk
    exact tame_float _ _ _ _ _ _ _ _ _ (ask_action (ask_rule h)) hk
  · have hn := noR.1 hn
    replace hi := hi hn
    unfold RuleNo at hn
    rw [grammar_float, no_action] at hn
    have key : ∀ {v1 v2 m b1 g1 d b2 g2}, Ok E ctx (.opt (.lit ['-'] false "\"-\"".toList)) [] pre s v1 m b1 g1 →
        Ok E ctx (.plus digit) g1 (pre ++ m) b1 v2 d b2 g2 →
        ∃ x, Lit E pre (m ++ d) x ∧ ∃ n, IntText (m ++ d) n ∧ -(2 ^ 63 : Int) ≤ n ∧ n < 2 ^ 63 := by
      intro v1 v2 m b1 g1 d b2 g2 h0 h1
      obtain ⟨-, rfl, hd, hd2, -⟩ := plus_digits h1
      have hs := h0.1
      rcases hi with ⟨v, a, b, hi⟩ | hi
      · obtain ⟨x, -, hx⟩ := int_lit hi
        obtain ⟨_, hi⟩ := hi
        rw [grammar_int, ok_action] at hi
        obtain ⟨_, hi, -⟩ := hi
        simp only [ok_seq, OkS] at hi
        obtain ⟨_, _, _, _, k1, _, rfl, _, t, _, _, k2, _, rfl, rfl, rfl, -⟩ := hi
        obtain ⟨-, rfl, rfl, rfl⟩ := h0.det k1
        obtain ⟨-, rfl, rfl, rfl⟩ := h1.det k2
        rw [List.append_nil] at hx
        obtain ⟨n, h1, h2, h3, -⟩ := lit_int (minus_of h0) hd hd2 hx
        exact ⟨x, hx, n, h1, h2, h3⟩
      · exact (int_head (noR.2 hi : No E ctx (.rule .IntValue) [] pre s) (minus_of h0) hd2 hd hs).elim
    rcases ask_seq (ask_action (ask_rule h)) with h | ⟨_, m, _, _, h0, h | ⟨_, d, _, _, h1, h | ⟨_, _, _, _, h2, h | ⟨_, _, _, _, -, h⟩⟩⟩⟩
    · rw [ask_sign h]; exact inside_here
    · rcases ask_digits h with ⟨rfl, -⟩ | ⟨_, d, _, h1, hq⟩
      · exact inside_sign h0
      · obtain ⟨x, hx, -⟩ := key h0 h1
        exact .inl ⟨_, _, hx, by rw [← List.append_assoc]; exact hq⟩
    · obtain ⟨x, hx, -⟩ := key h0 h1
      rw [ask_lit h]
      exact .inl ⟨_, _, hx, by rw [List.append_assoc]⟩
    · obtain ⟨x, hx, n, k1, k2, k3⟩ := key h0 h1
      obtain ⟨-, -, hd, hd2, -⟩ := plus_digits h1
      obtain ⟨y, hy⟩ := lit_point (E := E) (pre := pre) (minus_of h0) hd hd2 k1 k2 k3
      obtain ⟨-, rfl, rfl, rfl⟩ := ok_lit1.1 h2
      rcases ask_digits h with ⟨rfl, -⟩ | ⟨_, _, _, h3, -⟩
      · exact .inl ⟨_, _, hy, ⟨['0'], by simp⟩⟩
      · simp only [no_seq, NoS, no_opt] at hn
        obtain hn | ⟨_, _, _, _, l0, hn | ⟨_, _, _, _, l1, hn | ⟨_, _, _, _, l2, hn | ⟨_, _, _, _, -, hn⟩⟩⟩⟩ := hn
        · exact hn.elim
        · obtain ⟨-, rfl, rfl, rfl⟩ := h0.det l0
          exact (h1.clash hn).elim
        · obtain ⟨-, rfl, rfl, rfl⟩ := h0.det l0
          obtain ⟨-, rfl, rfl, rfl⟩ := h1.det l1
          exact (h2.clash hn).elim
        · obtain ⟨-, rfl, rfl, rfl⟩ := h0.det l0
          obtain ⟨-, rfl, rfl, rfl⟩ := h1.det l1
          obtain ⟨-, rfl, rfl, rfl⟩ := h2.det l2
          exact (h3.clash hn).elim
        · exact hn.elim
    · exact h.elim

theorem ask_bool (h : Ask E ctx (.rule .BoolValue) fr pre s q) : q = pre := by
  refine shy_choice ?_ _ _ _ _ _ (ask_action (ask_rule h))
  simp only [List.forall_mem_cons]
  exact ⟨shy_lit, shy_lit, by simp⟩

theorem ask_bare (h : Ask E ctx (.rule .BareValue) fr pre s q) : Inside E pre q := by
  have hd := ask_done h
  rcases ask_choice (ask_rule h) with h | ⟨n1, h | ⟨n2, h | ⟨n3, h | ⟨n4, h | ⟨-, h⟩⟩⟩⟩⟩
  · exact ask_time h
  · exact ask_ip h
  · refine ask_float h fun n3 => ?_
    rcases hd with ⟨_, _, _, _, hk⟩ | hn
    · obtain ⟨-, _, hk⟩ := ok_rule.1 hk
      simp only [grammar, ok_choice, OkC] at hk
      obtain ⟨-, ⟨_, hk⟩ | ⟨-, ⟨_, hk⟩ | ⟨-, ⟨_, hk⟩ | ⟨-, ⟨_, hk⟩ | ⟨hn, -⟩⟩⟩⟩⟩ := hk
      · exact (hk.clash n1).elim
      · exact (hk.clash n2).elim
      · exact (hk.clash (noR.2 n3)).elim
      · exact .inl ⟨_, _, _, (okR.1 hk).2⟩
      · exact .inr (noR.1 hn)
    · have hn := noR.1 hn
      unfold RuleNo at hn
      simp only [grammar, no_choice, NoC] at hn
      exact .inr (noR.1 hn.2.2.2.1)
  · exact ask_int h
  · rw [ask_bool h]; exact inside_here
  · exact h.elim

theorem ask_value (h : Ask E ctx (.rule .Value) fr pre s q) : Inside E pre q := by
  rcases ask_choice (ask_rule h) with h | ⟨-, h | ⟨-, h⟩⟩
  · rcases ask_choice (ask_label (ask_action h)) with h | ⟨-, h | ⟨-, h | ⟨-, h⟩⟩⟩
    · rcases ask_quoted h with rfl | ⟨v, a, b, hr, hq⟩
      · exact inside_here
      · obtain ⟨-, t, x, h1, h2, -⟩ := rule_quoted.1 hr
        exact .inl ⟨_, _, .string h1 h2, hq⟩
    · rcases ask_regex h with rfl | ⟨v, a, b, hr, hq⟩
      · exact inside_here
      · obtain ⟨-, t, u, src, h1, h2, h3, h4, h5, -⟩ := rule_regex.1 hr
        exact .inl ⟨_, _, .regex h1 h2 h3 h4 h5, hq⟩
    · exact ask_bare h
    · exact h.elim
  · have hd := ask_done h
    obtain ⟨x, y, hr, h1⟩ := ask_plus (ask_action h)
    rcases hd with ⟨_, _, _, _, hk⟩ | hn
    · exfalso
      obtain ⟨_, -, hr⟩ := ok_action.1 hk
      simp only [runAct] at hr
      split at hr
      · cases hr
      · split at hr <;> simp at hr
    · replace hn := no_plus.1 (no_action.1 hn)
      cases hr with
      | nil => rw [ask_cls h1, List.append_nil]; exact inside_here
      | cons h2 _ => exact (h2.clash hn).elim
  · exact h.elim

end Aql
