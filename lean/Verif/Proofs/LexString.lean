import Verif.Proofs.Lex
/-!
Clean runs of the rules for strings and regular expressions.
-/

namespace Aql

open Spec

variable {E : Env} {ctx : Ctx} {fr fr' : VFrame} {pre s a b : Str} {v : PV}

/-! ### Strings -/

/-- What the grammar lets through between the quotes. -/
inductive QTok : Str → Prop
  | nil : QTok []
  | plain {c : Char} {s : Str} : c ≠ '"' → c ≠ '\\' → 32 ≤ c.toNat → QTok s → QTok (c :: s)
  | esc {c : Char} {s : Str} : c ∈ ['"', '\\', 'b', 'f', 'n', 'r', 't'] → QTok s → QTok ('\\' :: c :: s)
  | uni {a b c d : Char} {s : Str} : QTok s → QTok ('\\' :: 'u' :: a :: b :: c :: d :: s)

theorem cls_escaped {c : Char} :
    clsMatch E ['"', '\\'] [('\x00', '\x1f')] false false c = true ↔
      c = '"' ∨ c = '\\' ∨ c.toNat < 32 := by
  simp only [clsMatch, Bool.false_eq_true, if_false, bne_iff_ne, ne_eq, Bool.not_eq_false, Bool.or_eq_true,
    List.contains_iff_mem, List.mem_cons, List.not_mem_nil, or_false, List.any_cons, List.any_nil, Bool.or_false,
    Bool.and_eq_true, decide_eq_true_eq, Char.le_def, UInt32.le_iff_toNat_le, or_assoc]
  have h : c.val.toNat = c.toNat := rfl
  rw [h]
  have h1 : ('\x00' : Char).val.toNat = 0 := rfl
  have h2 : ('\x1f' : Char).val.toNat = 31 := rfl
  rw [h1, h2]
  constructor
  · rintro (h | h | h)
    · exact .inl h
    · exact .inr (.inl h)
    · exact .inr (.inr (by omega))
  · rintro (h | h | h)
    · exact .inl h
    · exact .inr (.inl h)
    · exact .inr (.inr (by omega))

/-- The repeated expression of QuotedValue. -/
def quotedElem : PExpr :=
  .choice [.seq [.not (.rule .EscapedChar), .any],
    .seq [.lit ['\\'] false "\"\\\\\"".toList, .rule .EscapeSequence]]

theorem rule_escapedChar : RuleOk E ctx .EscapedChar pre s v a b ↔ ∃ c, a = [c] ∧ s = c :: b ∧
    v = .bytes [c] ∧ (c = '"' ∨ c = '\\' ∨ c.toNat < 32) := by
  unfold RuleOk
  simp only [grammar, ok_cls, cls_escaped]
  constructor
  · rintro ⟨_, rfl, h⟩; exact h
  · intro h; exact ⟨_, rfl, h⟩

theorem rule_escapedChar_no : RuleNo E ctx .EscapedChar pre s ↔
    NoHead (fun c => c = '"' ∨ c = '\\' ∨ c.toNat < 32) s := by
  unfold RuleNo
  simp only [grammar, no_cls', cls_escaped]

theorem rule_hexDigit : RuleOk E ctx .HexDigit pre s v a b ↔ ∃ c, a = [c] ∧ s = c :: b ∧
    v = .bytes [c] ∧ clsMatch E [] [('0', '9'), ('a', 'f')] true false c = true := by
  unfold RuleOk
  simp only [grammar, ok_cls]
  constructor
  · rintro ⟨_, rfl, h⟩; exact h
  · intro h; exact ⟨_, rfl, h⟩

theorem quoted_tok {vs : List PV} (h : Reps E ctx quotedElem pre s vs a b) : QTok a := by
  unfold quotedElem at h
  induction h with
  | nil _ => exact .nil
  | cons h1 _ ih =>
    simp only [ok_choice, OkC, ok_seq, OkS, ok_not, ok_any, okR, ok_lit1, noR, rule_escapedChar_no] at h1
    obtain ⟨rfl, h1 | ⟨-, h1 | ⟨-, h1⟩⟩⟩ := h1
    · obtain ⟨_, _, _, _, _, ⟨rfl, rfl, rfl, rfl, hc⟩, _, rfl, _, _, _, _, ⟨rfl, x, rfl, rfl, rfl⟩, _, rfl,
        rfl, rfl, rfl, rfl⟩ := h1
      have := hc x _ rfl
      push Not at this
      exact .plain this.1 this.2.1 this.2.2 ih
    · obtain ⟨_, _, _, _, _, ⟨rfl, rfl, rfl, rfl⟩, _, rfl, _, _, _, _, ⟨rfl, h⟩, _, rfl, rfl, rfl, rfl,
        rfl⟩ := h1
      unfold RuleOk at h
      simp only [grammar, ok_choice, OkC, okR] at h
      obtain ⟨_, rfl, ⟨_, _, _, h⟩ | ⟨_, ⟨_, _, _, h⟩ | h⟩⟩ := h
      · simp only [grammar, ok_cls] at h
        obtain ⟨rfl, x, rfl, rfl, rfl, hm⟩ := h
        refine .esc ?_ ih
        simpa [clsMatch] using hm
      · simp only [grammar, ok_seq, OkS, okR, ok_lit1, rule_hexDigit] at h
        obtain ⟨_, _, _, _, ⟨rfl, rfl, rfl, rfl⟩, _, rfl, _, _, _, _, ⟨rfl, x1, rfl, rfl, rfl, -⟩, _, rfl,
          _, _, _, _, ⟨rfl, x2, rfl, rfl, rfl, -⟩, _, rfl,
          _, _, _, _, ⟨rfl, x3, rfl, rfl, rfl, -⟩, _, rfl,
          _, _, _, _, ⟨rfl, x4, rfl, rfl, rfl, -⟩, _, rfl, rfl, rfl, rfl, rfl⟩ := h
        exact .uni ih
      · exact h.2.elim
    · exact h1.elim

theorem isHex {c : Char} {n : Nat} (h : unhex c = some n) : HexVal c n := by
  unfold unhex at h
  split at h
  · rename_i h1; cases h; exact .digit h1.1 h1.2
  · split at h
    · rename_i h1
      cases h
      have h2 : 97 ≤ c.toNat := UInt32.le_iff_toNat_le.1 (Char.le_def.1 h1.1)
      have : c.toNat - 'a'.toNat + 10 = c.toNat - 87 := by
        have : 'a'.toNat = 97 := rfl
        omega
      rw [this]
      exact .lower h1.1 h1.2
    · split at h
      · rename_i h1
        cases h
        have h2 : 65 ≤ c.toNat := UInt32.le_iff_toNat_le.1 (Char.le_def.1 h1.1)
        have : c.toNat - 'A'.toNat + 10 = c.toNat - 55 := by
          have : 'A'.toNat = 65 := rfl
          omega
        rw [this]
        exact .upper h1.1 h1.2
      · cases h

theorem char_le {c d : Char} : c ≤ d ↔ c.toNat ≤ d.toNat := by
  rw [Char.le_def, UInt32.le_iff_toNat_le]; rfl

theorem unhex_of {c : Char} {n : Nat} (h : HexVal c n) : unhex c = some n := by
  unfold unhex
  cases h with
  | digit h1 h2 => rw [if_pos ⟨h1, h2⟩]; rfl
  | lower h1 h2 =>
    have h3 : 97 ≤ c.toNat := char_le.1 h1
    rw [if_neg, if_pos ⟨h1, h2⟩]
    · have : 'a'.toNat = 97 := rfl
      congr 1; omega
    · rintro ⟨_, h4⟩
      have : c.toNat ≤ 57 := char_le.1 h4
      omega
  | upper h1 h2 =>
    have h3 : 65 ≤ c.toNat := char_le.1 h1
    have h3' : c.toNat ≤ 70 := char_le.1 h2
    rw [if_neg, if_neg, if_pos ⟨h1, h2⟩]
    · have : 'A'.toNat = 65 := rfl
      congr 1; omega
    · rintro ⟨h4, _⟩
      have : 97 ≤ c.toNat := char_le.1 h4
      omega
    · rintro ⟨_, h4⟩
      have : c.toNat ≤ 57 := char_le.1 h4
      omega

theorem unquoteBody_plain {c : Char} {s : Str} (h1 : c ≠ '"') (h2 : c ≠ '\\') (h3 : 32 ≤ c.toNat) :
    unquoteBody (c :: s) = (unquoteBody s).map (c :: ·) := by
  have hn : c ≠ '\n' := by rintro rfl; exact absurd h3 (by decide)
  rw [unquoteBody.eq_def]
  split <;> simp_all

theorem unquoteBody_uni {a b c d : Char} {s : Str} :
    unquoteBody ('\\' :: 'u' :: a :: b :: c :: d :: s) =
    match unhex a, unhex b, unhex c, unhex d with
    | some a, some b, some c, some d =>
      if (((a * 16 + b) * 16 + c) * 16 + d).isValidChar then
        (unquoteBody s).map (Char.ofNat (((a * 16 + b) * 16 + c) * 16 + d) :: ·) else none
    | _, _, _, _ => none := by
  simp only [unquoteBody]
  rfl

theorem map_some {α β : Type} {o : Option α} {f : α → β} {x : β} (h : o.map f = some x) :
    ∃ y, o = some y ∧ x = f y := by
  cases o with
  | none => cases h
  | some y => cases h; exact ⟨y, rfl, rfl⟩

theorem strBody_of {x : Str} (h : QTok a) (hx : unquoteBody (a ++ ['"']) = some x) : StrBody a x := by
  induction h generalizing x with
  | nil =>
    simp [unquoteBody] at hx
    subst hx; exact .nil
  | plain h1 h2 h3 _ ih =>
    rw [List.cons_append, unquoteBody_plain h1 h2 h3] at hx
    obtain ⟨y, hy, rfl⟩ := map_some hx
    exact .plain h1 h2 h3 (ih hy)
  | esc hc _ ih =>
    rw [List.cons_append, List.cons_append] at hx
    simp only [List.mem_cons, List.not_mem_nil, or_false] at hc
    rcases hc with rfl | rfl | rfl | rfl | rfl | rfl | rfl <;>
      (simp only [unquoteBody] at hx; obtain ⟨y, hy, rfl⟩ := map_some hx; refine .escape ?_ (ih hy))
    · exact .quote
    · exact .backslash
    · exact .b
    · exact .f
    · exact .n
    · exact .r
    · exact .t
  | @uni a b c d s _ ih =>
    simp only [List.cons_append] at hx
    rw [unquoteBody_uni] at hx
    split at hx
    · rename_i ha hb hc hd h1 h2 h3 h4
      split at hx
      · rename_i hv
        obtain ⟨y, hy, rfl⟩ := map_some hx
        exact .unicode (isHex h1) (isHex h2) (isHex h3) (isHex h4) (by ring) hv (ih hy)
      · cases hx
    · cases hx

theorem unquoteBody_of {x : Str} (h : StrBody a x) : unquoteBody (a ++ ['"']) = some x := by
  induction h with
  | nil => rfl
  | plain h1 h2 h3 _ ih =>
    rw [List.cons_append, unquoteBody_plain h1 h2 h3, ih]; rfl
  | escape hc _ ih =>
    cases hc <;> (simp only [List.cons_append, unquoteBody, ih]; rfl)
  | @unicode a b c d ha hb hc hd v s x h1 h2 h3 h4 h5 h6 _ ih =>
    simp only [List.cons_append]
    rw [unquoteBody_uni, unhex_of h1, unhex_of h2, unhex_of h3, unhex_of h4]
    have : ((ha * 16 + hb) * 16 + hc) * 16 + hd = v := by rw [h5]; ring
    simp only [this, if_pos h6, ih, Option.map_some]

theorem cls_hex {c : Char} {n : Nat} (h : HexVal c n) :
    clsMatch E [] [('0', '9'), ('a', 'f')] true false c = true := by
  have key : ∀ k : Fin 128, ((48 ≤ k.val ∧ k.val ≤ 57) ∨ (97 ≤ k.val ∧ k.val ≤ 102) ∨
      (65 ≤ k.val ∧ k.val ≤ 70)) → (('0' ≤ asciiLower (Char.ofNat k.val) ∧ asciiLower (Char.ofNat k.val) ≤ '9') ∨
        ('a' ≤ asciiLower (Char.ofNat k.val) ∧ asciiLower (Char.ofNat k.val) ≤ 'f')) := by
    decide +kernel
  have hb : (48 ≤ c.toNat ∧ c.toNat ≤ 57) ∨ (97 ≤ c.toNat ∧ c.toNat ≤ 102) ∨
      (65 ≤ c.toNat ∧ c.toNat ≤ 70) := by
    cases h with
    | digit h1 h2 => exact .inl ⟨char_le.1 h1, char_le.1 h2⟩
    | lower h1 h2 => exact .inr (.inl ⟨char_le.1 h1, char_le.1 h2⟩)
    | upper h1 h2 => exact .inr (.inr ⟨char_le.1 h1, char_le.1 h2⟩)
  have hlt : c.toNat < 128 := by omega
  have := key ⟨c.toNat, hlt⟩ hb
  dsimp only at this
  rw [Char.ofNat_toNat] at this
  have hg : goLower E c = asciiLower c := by
    unfold goLower
    rw [if_pos]
    exact UInt32.lt_iff_toNat_lt.2 hlt
  simp only [clsMatch, if_true, hg]
  simpa using this

theorem quoted_reps {x : Str} (h : StrBody a x) :
    ∃ vs, Reps E ctx quotedElem pre (a ++ '"' :: b) vs a ('"' :: b) := by
  induction h generalizing pre with
  | nil =>
    refine ⟨_, .nil ?_⟩
    unfold quotedElem
    simp only [no_choice, NoC, no_seq, NoS, no_not, okR, rule_escapedChar, no_lit1]
    refine ⟨.inl ⟨_, _, _, _, rfl, '"', rfl, rfl, rfl, .inl rfl⟩, .inl (by rw [List.nil_append, noHead_cons]; decide), trivial⟩
  | @plain c s x h1 h2 h3 _ ih =>
    obtain ⟨vs, ih⟩ := ih (pre := pre ++ [c])
    refine ⟨_, .cons (a1 := [c]) (b1 := s ++ '"' :: b) (g := []) (v := .list [.nil, .bytes [c]]) ?_ ih⟩
    unfold quotedElem
    simp only [ok_choice, OkC, ok_seq, OkS, ok_not, ok_any, noR, rule_escapedChar_no]
    refine ⟨trivial, .inl ⟨[], _, [], _, _, ⟨rfl, rfl, rfl, rfl, ?_⟩, _, rfl, _, _, _, _,
      ⟨rfl, c, rfl, rfl, rfl⟩, _, rfl, rfl, rfl, rfl, rfl⟩⟩
    simp only [List.cons_append, noHead_cons]
    rintro (h | h | h)
    · exact h1 h
    · exact h2 h
    · omega
  | @escape c d s x hc _ ih =>
    obtain ⟨vs, ih⟩ := ih (pre := pre ++ ['\\', c])
    refine ⟨_, .cons (a1 := ['\\', c]) (b1 := s ++ '"' :: b) (g := []) (v := .list [.bytes ['\\'], .bytes [c]]) ?_ ih⟩
    unfold quotedElem
    simp only [ok_choice, OkC, ok_seq, OkS, ok_not, no_seq, NoS, no_not, okR, rule_escapedChar, ok_lit1]
    refine ⟨trivial, .inr ⟨.inl ⟨_, _, _, _, rfl, '\\', rfl, rfl, rfl, .inr (.inl rfl)⟩, .inl ⟨[], _, ['\\'], _, _,
      ⟨rfl, rfl, rfl, rfl⟩, [c], rfl, _, [c], s ++ '"' :: b, _, ⟨rfl, ?_⟩, [], rfl, rfl, rfl, rfl, rfl⟩⟩⟩
    unfold RuleOk
    simp only [grammar, ok_choice, OkC, okR, RuleOk, ok_cls]
    refine ⟨[], rfl, .inl ⟨[], rfl, [], rfl, c, rfl, rfl, rfl, ?_⟩⟩
    cases hc <;> rfl
  | @unicode a b' c d ha hb hc hd v s x h1 h2 h3 h4 h5 h6 _ ih =>
    obtain ⟨vs, ih⟩ := ih (pre := pre ++ ['\\', 'u', a, b', c, d])
    refine ⟨_, .cons (a1 := ['\\', 'u', a, b', c, d]) (b1 := s ++ '"' :: b) (g := [])
      (v := .list [.bytes ['\\'], .list [.bytes ['u'], .bytes [a], .bytes [b'], .bytes [c], .bytes [d]]]) ?_ ih⟩
    unfold quotedElem
    simp only [ok_choice, OkC, ok_seq, OkS, ok_not, no_seq, NoS, no_not, okR, rule_escapedChar, ok_lit1]
    refine ⟨trivial, .inr ⟨.inl ⟨_, _, _, _, rfl, '\\', rfl, rfl, rfl, .inr (.inl rfl)⟩, .inl ⟨[], _, ['\\'], _, _,
      ⟨rfl, rfl, rfl, rfl⟩, ['u', a, b', c, d], rfl, _, ['u', a, b', c, d], s ++ '"' :: b, _, ⟨rfl, ?_⟩, [], rfl,
      rfl, rfl, rfl, rfl⟩⟩⟩
    unfold RuleOk
    simp only [grammar, ok_choice, OkC, okR, noR, RuleNo, no_cls]
    refine ⟨[], rfl, .inr ⟨?_, .inl ⟨[], rfl, ?_⟩⟩⟩
    · intro x t hx
      cases hx
      rfl
    · unfold RuleOk
      simp only [grammar, ok_seq, OkS, okR, ok_lit1, rule_hexDigit]
      exact ⟨_, _, _, _, _, ⟨rfl, rfl, rfl, rfl⟩, _, rfl, _, _, _, _, ⟨rfl, a, rfl, rfl, rfl, cls_hex h1⟩, _, rfl,
        _, _, _, _, ⟨rfl, b', rfl, rfl, rfl, cls_hex h2⟩, _, rfl, _, _, _, _,
        ⟨rfl, c, rfl, rfl, rfl, cls_hex h3⟩, _, rfl, _, _, _, _, ⟨rfl, d, rfl, rfl, rfl, cls_hex h4⟩, _, rfl, rfl,
        rfl, rfl, rfl⟩

theorem rule_endingQuote {rs : List (FailLabel × PExpr)} (hc : ctx.recov = (.errUntermStr, .rule .ErrUntermStr) :: rs) :
    RuleOk E ctx .EndingQuote pre s v a b ↔ a = ['"'] ∧ s = '"' :: b ∧ v = .bytes ['"'] := by
  unfold RuleOk
  simp only [grammar, ok_choice, OkC, ok_lit1]
  constructor
  · rintro ⟨_, rfl, ⟨_, _, h⟩ | ⟨_, ⟨_, h⟩ | h⟩⟩
    · exact h
    · exact absurd h (ok_throw ⟨_, rfl⟩ hc)
    · exact h.2.elim
  · intro h; exact ⟨_, rfl, .inl ⟨_, rfl, h⟩⟩

theorem getpos_locAt {c : Char} {t : Str} (h : c ≠ '\n') (hs : s = c :: t) :
    getpos (locAt pre s) a = posAt pre a := by
  rw [locAt_other (by rintro u rfl; cases hs; exact h rfl)]
  rfl

theorem tokResult_ok {o : Option Val} {k : ErrKind} {n : Nat}
    (h : tokResult o k n = .ok (v, none)) : ∃ x, o = some x ∧ v = .val x := by
  cases o with
  | none => simp [tokResult] at h
  | some x =>
    simp only [tokResult, Except.ok.injEq, Prod.mk.injEq, and_true] at h
    exact ⟨x, rfl, h.symm⟩

/-- A quoted value is a string literal. -/
theorem rule_quoted : RuleOk E ctx .QuotedValue pre s v a b ↔
    s = a ++ b ∧ ∃ t x, StrBody t x ∧ a = '"' :: (t ++ ['"']) ∧ v = .val (.str x (posAt pre a)) := by
  unfold RuleOk
  rw [show grammar .QuotedValue = .recover .errUntermStr (.action .onQuotedValue2
    (.seq [.lit ['"'] false "\"\\\"\"".toList, .star quotedElem, .rule .EndingQuote])) (.rule .ErrUntermStr) from rfl]
  simp only [ok_recover, ok_action, ok_seq, OkS, ok_lit1, ok_star, okR,
    rule_endingQuote (E := E) (ctx := { ctx with recov := (.errUntermStr, .rule .ErrUntermStr) :: ctx.recov }) rfl]

  constructor
  · rintro ⟨_, _, ⟨_, _, _, _, ⟨rfl, rfl, rfl, rfl⟩, _, rfl, _, t, _, _, ⟨rfl, _, rfl, h⟩, _, rfl, _, _, _, _,
      ⟨rfl, rfl, rfl, rfl⟩, _, rfl, rfl, rfl, rfl, rfl⟩, hr⟩
    have hq := quoted_tok h
    have hs := h.split
    subst hs
    obtain ⟨y, hy, rfl⟩ := tokResult_ok hr
    obtain ⟨x, hx, rfl⟩ := map_some hy
    refine ⟨by simp, t, x, strBody_of hq ?_, by simp, ?_⟩
    · simpa [unquote] using hx
    · rw [getpos_locAt (by decide) rfl]
  · rintro ⟨rfl, t, x, hx, rfl, rfl⟩
    obtain ⟨vs, h⟩ := quoted_reps (E := E) (ctx := { ctx with recov := (.errUntermStr, .rule .ErrUntermStr) :: ctx.recov })
      (pre := pre ++ ['"']) (b := b) hx
    refine ⟨_, _, ⟨_, _, t ++ '"' :: b, _, ⟨rfl, rfl, by simp, rfl⟩, t ++ ['"'], rfl, _, t, _, _, ⟨rfl, vs, rfl, h⟩, ['"'],
      rfl, _, ['"'], b, _, ⟨rfl, rfl, rfl, rfl⟩, [], rfl, rfl, rfl, rfl, rfl⟩, ?_⟩
    simp only [runAct]
    have : unquote ('"' :: (t ++ ['"'])) = some x := unquoteBody_of hx
    rw [this]
    simp only [Option.map_some, tokResult, Except.ok.injEq, Prod.mk.injEq, and_true]
    rw [getpos_locAt (s := '"' :: (t ++ ['"']) ++ b) (c := '"') (by decide) rfl]

theorem rule_quoted_no (h : NoHead (· = '"') s) : RuleNo E ctx .QuotedValue pre s := by
  unfold RuleNo
  simp only [grammar, no_recover, no_action, no_seq, NoS, no_lit1]
  exact .inl h

/-! ### Regular expressions -/

theorem rule_regexEscape : RuleOk E ctx .RegexEscape pre s v a b ↔ ∃ c, a = [c] ∧ s = c :: b ∧ c ≠ '\n' ∧
    v = .list [.nil, .bytes [c]] := by
  unfold RuleOk
  simp only [grammar, ok_seq, OkS, ok_not, no_choice, NoC, noR, rule_eol_no, rule_eof_no, ok_any]
  constructor
  · rintro ⟨_, _, _, _, _, ⟨rfl, rfl, rfl, rfl, h1, h2, -⟩, _, rfl, _, _, _, _, ⟨rfl, c, rfl, rfl, rfl⟩, _, rfl, rfl,
      rfl, rfl, rfl⟩
    exact ⟨c, rfl, rfl, by simpa using h1, rfl⟩
  · rintro ⟨c, rfl, rfl, h, rfl⟩
    exact ⟨_, _, [], _, _, ⟨rfl, rfl, rfl, rfl, by simpa using h, by simp, trivial⟩, _, rfl, _, _, _, _,
      ⟨rfl, c, rfl, rfl, rfl⟩, _, rfl, rfl, rfl, rfl, rfl⟩

theorem rule_regexChar : RuleOk E ctx .RegexChar pre s v a b ↔
    (∃ c, a = [c] ∧ s = c :: b ∧ c ≠ '/' ∧ c ≠ '\\' ∧ c ≠ '\n' ∧ v = .list [.nil, .bytes [c]]) ∨
    (∃ c, a = ['\\', c] ∧ s = '\\' :: c :: b ∧ c ≠ '\n' ∧
      v = .list [.bytes ['\\'], .list [.nil, .bytes [c]]]) := by
  unfold RuleOk
  simp only [grammar, ok_choice, OkC, ok_seq, OkS, ok_not, no_choice, NoC, noR, okR, no_lit1, rule_eol_no,
    ok_any, ok_lit1, rule_regexEscape]
  constructor
  · rintro ⟨_, rfl, ⟨_, _, _, _, _, ⟨rfl, rfl, rfl, rfl, h1, h2, h3, -⟩, _, rfl, _, _, _, _,
      ⟨rfl, c, rfl, rfl, rfl⟩, _, rfl, rfl, rfl, rfl, rfl⟩ | ⟨-, ⟨_, _, _, _, _, ⟨rfl, rfl, rfl, rfl⟩, _, rfl, _, _, _,
      _, ⟨rfl, c, rfl, rfl, hc, rfl⟩, _, rfl, rfl, rfl, rfl, rfl⟩ | h⟩⟩
    · exact .inl ⟨c, rfl, rfl, by simpa using h1, by simpa using h2, by simpa using h3, rfl⟩
    · exact .inr ⟨c, rfl, rfl, hc, rfl⟩
    · exact h.2.elim
  · rintro (⟨c, rfl, rfl, h1, h2, h3, rfl⟩ | ⟨c, rfl, rfl, h, rfl⟩)
    · exact ⟨_, rfl, .inl ⟨_, _, [], _, _, ⟨rfl, rfl, rfl, rfl, by simpa using h1, by simpa using h2,
        by simpa using h3, trivial⟩, _, rfl, _, _, _, _, ⟨rfl, c, rfl, rfl, rfl⟩, _, rfl, rfl, rfl, rfl, rfl⟩⟩
    · refine ⟨_, rfl, .inr ⟨?_, .inl ⟨_, _, _, _, _, ⟨rfl, rfl, rfl, rfl⟩, _, rfl, _, _, _, _,
        ⟨rfl, c, rfl, rfl, h, rfl⟩, _, rfl, rfl, rfl, rfl, rfl⟩⟩⟩
      simp only [no_seq, NoS, no_not, ok_choice, OkC, ok_lit1, no_lit1]
      exact .inl ⟨_, _, _, _, rfl, .inr ⟨by simp, .inl ⟨_, rfl, rfl, rfl, rfl⟩⟩⟩

theorem rule_regexChar_no (h : NoHead (fun c => ¬ c = '/') s) : RuleNo E ctx .RegexChar pre s := by
  unfold RuleNo
  simp only [grammar, no_choice, NoC, no_seq, NoS, no_not, ok_choice, OkC, ok_lit1, no_lit1, ok_not]
  cases s with
  | nil =>
    refine ⟨.inr ⟨_, _, _, _, ⟨rfl, rfl, rfl, rfl, ?_⟩, .inl ?_⟩, .inl (by simp), trivial⟩
    · simp only [noR, rule_eol_no]
      simp
    · rw [no_any]
  | cons c t =>
    have hc : c = '/' := by simpa using h
    subst hc
    exact ⟨.inl ⟨_, _, _, _, rfl, .inl ⟨_, rfl, rfl, rfl, rfl⟩⟩, .inl (by simp), trivial⟩

theorem regex_body {vs : List PV} (h : Reps E ctx (.rule .RegexChar) pre s vs a b) : RegexBody a := by
  induction h with
  | nil _ => exact .nil
  | cons h1 _ ih =>
    rw [okR, rule_regexChar] at h1
    obtain ⟨rfl, ⟨c, rfl, rfl, h2, h3, h4, rfl⟩ | ⟨c, rfl, rfl, h2, rfl⟩⟩ := h1
    · exact .plain h2 h3 h4 ih
    · exact .escape h2 ih

theorem regex_reps (h : RegexBody a) :
    ∃ vs, Reps E ctx (.rule .RegexChar) pre (a ++ '/' :: b) vs a ('/' :: b) := by
  induction h generalizing pre with
  | nil => exact ⟨_, .nil (noR.2 (rule_regexChar_no (by simp)))⟩
  | @plain c s h1 h2 h3 _ ih =>
    obtain ⟨vs, ih⟩ := ih (pre := pre ++ [c])
    exact ⟨_, .cons (a1 := [c]) (okR.2 ⟨rfl, rule_regexChar.2 (.inl ⟨c, rfl, rfl, h1, h2, h3, rfl⟩)⟩) ih⟩
  | @escape c s h1 _ ih =>
    obtain ⟨vs, ih⟩ := ih (pre := pre ++ ['\\', c])
    exact ⟨_, .cons (a1 := ['\\', c]) (okR.2 ⟨rfl, rule_regexChar.2 (.inr ⟨c, rfl, rfl, h1, rfl⟩)⟩) ih⟩

theorem rule_endingSlash {rs : List (FailLabel × PExpr)}
    (hc : ctx.recov = (.errUntermRegex, .rule .ErrUntermRegex) :: rs) :
    RuleOk E ctx .EndingSlash pre s v a b ↔ a = ['/'] ∧ s = '/' :: b ∧ v = .bytes ['/'] := by
  unfold RuleOk
  simp only [grammar, ok_choice, OkC, ok_lit1]
  constructor
  · rintro ⟨_, rfl, ⟨_, _, h⟩ | ⟨_, ⟨_, h⟩ | h⟩⟩
    · exact h
    · exact absurd h (ok_throw ⟨_, rfl⟩ hc)
    · exact h.2.elim
  · intro h; exact ⟨_, rfl, .inl ⟨_, rfl, h⟩⟩

theorem unescaped_iff {t u : Str} : Unescaped t u ↔ unescapeSlash t = u := by
  constructor
  · intro h
    induction h with
    | nil => rfl
    | slash _ ih => simp only [unescapeSlash, ih]
    | @other c s u hc _ ih =>
      rw [unescapeSlash, ih]
      intro s' hc' hs
      exact hc hc' s' hs
  · rintro rfl
    induction t using unescapeSlash.induct with
    | case1 s ih => simp only [unescapeSlash]; exact .slash ih
    | case2 c s h ih =>
      rw [unescapeSlash]
      · exact .other (fun hc t ht => h t hc ht) ih
      · exact h
    | case3 => exact .nil

theorem dropSlash (u : Str) : ∃ i, u = List.replicate i '/' ++ u.dropWhile (· == '/') ∧
    (u.dropWhile (· == '/')).head? ≠ some '/' := by
  induction u with
  | nil => exact ⟨0, rfl, by simp⟩
  | cons c u ih =>
    by_cases hc : c = '/'
    · subst hc
      obtain ⟨i, h1, h2⟩ := ih
      refine ⟨i + 1, ?_, by simpa using h2⟩
      rw [List.replicate_succ, List.cons_append]
      simpa using h1
    · refine ⟨0, by simp [hc], by simp [hc]⟩

theorem dropSlash_rep (i : Nat) {r : Str} (h : r.head? ≠ some '/') :
    (List.replicate i '/' ++ r).dropWhile (· == '/') = r := by
  induction i with
  | zero =>
    cases r with
    | nil => rfl
    | cons c r =>
      have : c ≠ '/' := by simpa using h
      simp [this]
  | succ i ih => simpa [List.replicate_succ] using ih

theorem trimmed_iff {u src : Str} : Trimmed u src ↔ trimSlash u = src := by
  unfold trimSlash
  constructor
  · rintro ⟨i, j, rfl, h1, h2⟩
    by_cases hs : src = []
    · subst hs
      have : ([] : Str) ++ List.replicate j '/' = List.replicate j '/' ++ [] := by simp
      rw [this, ← List.append_assoc, ← List.replicate_add, dropSlash_rep _ (by simp)]
      simp
    · have h3 : (src ++ List.replicate j '/').head? ≠ some '/' := by
        cases src with
        | nil => exact absurd rfl hs
        | cons c t => simpa using h1
      rw [dropSlash_rep i h3, List.reverse_append, List.reverse_replicate, dropSlash_rep]
      · simp
      · rw [List.head?_reverse]; exact h2
  · rintro rfl
    obtain ⟨i, h1, h2⟩ := dropSlash u
    obtain ⟨j, h3, h4⟩ := dropSlash (u.dropWhile (· == '/')).reverse
    generalize u.dropWhile (· == '/') = m at *
    generalize hk : m.reverse.dropWhile (· == '/') = k at *
    have hm : m = k.reverse ++ List.replicate j '/' := by
      have := congrArg List.reverse h3
      rw [List.reverse_reverse, List.reverse_append, List.reverse_replicate] at this
      exact this
    refine ⟨i, j, by rw [← hm]; exact h1, ?_, ?_⟩
    · cases hkr : k.reverse with
      | nil => simp
      | cons c t =>
        rw [hm, hkr] at h2
        simpa using h2
    · rw [List.getLast?_reverse]; exact h4

/-- A regular expression is a literal. -/
theorem rule_regex : RuleOk E ctx .RegexValue pre s v a b ↔
    s = a ++ b ∧ ∃ t u src, RegexBody t ∧ a = '/' :: (t ++ ['/']) ∧ Unescaped a u ∧ Trimmed u src ∧
      reCompiles E src = true ∧ v = .val (.regex u src (posAt pre a)) := by
  unfold RuleOk
  simp only [grammar, ok_recover, ok_action, ok_seq, OkS, ok_lit1, ok_star, okR, unescaped_iff, trimmed_iff,
    rule_endingSlash (E := E) (ctx := { ctx with recov := (.errUntermRegex, .rule .ErrUntermRegex) :: ctx.recov }) rfl]
  constructor
  · rintro ⟨_, _, ⟨_, _, _, _, ⟨rfl, rfl, rfl, rfl⟩, _, rfl, _, t, _, _, ⟨rfl, _, rfl, h⟩, _, rfl, _, _, _, _,
      ⟨rfl, rfl, rfl, rfl⟩, _, rfl, rfl, rfl, rfl, rfl⟩, hr⟩
    have hq := regex_body h
    have hs := h.split
    subst hs
    obtain ⟨y, hy, rfl⟩ := tokResult_ok hr
    rw [getpos_locAt (by decide) rfl] at hy
    unfold newRegexpVal at hy
    split at hy
    · rename_i hc
      cases hy
      exact ⟨by simp, t, _, _, hq, by simp, rfl, rfl, hc, rfl⟩
    · cases hy
  · rintro ⟨rfl, t, u, src, hx, rfl, rfl, rfl, hc, rfl⟩
    obtain ⟨vs, h⟩ := regex_reps (E := E)
      (ctx := { ctx with recov := (.errUntermRegex, .rule .ErrUntermRegex) :: ctx.recov })
      (pre := pre ++ ['/']) (b := b) hx
    refine ⟨_, _, ⟨_, _, t ++ '/' :: b, _, ⟨rfl, rfl, by simp, rfl⟩, t ++ ['/'], rfl, _, t, _, _, ⟨rfl, vs, rfl, h⟩,
      ['/'], rfl, _, ['/'], b, _, ⟨rfl, rfl, rfl, rfl⟩, [], rfl, rfl, rfl, rfl, rfl⟩, ?_⟩
    simp only [runAct]
    rw [getpos_locAt (s := '/' :: (t ++ ['/']) ++ b) (c := '/') (by decide) rfl]
    unfold newRegexpVal
    rw [if_pos hc]
    rfl

theorem rule_regex_no (h : NoHead (· = '/') s) : RuleNo E ctx .RegexValue pre s := by
  unfold RuleNo
  simp only [grammar, no_recover, no_action, no_seq, NoS, no_lit1]
  exact .inl h

end Aql
