import Verif.Proofs.ErrTrace
import Verif.Proofs.Reread
import Verif.Spec.ErrorText
/-!
The first error recorded while a value is read is true of the text it marks.
-/

namespace Aql

open Spec

variable {E : Env} {ctx : Ctx} {fr fr' : VFrame} {pre s a b : Str} {v : PV} {p : Loc} {k : RecErr}

/-- The recorded error marks a part of the text `s` after `pre`, and is true of it. -/
def Fault (E : Env) (pre s : Str) (p : Loc) (k : RecErr) : Prop :=
  ∃ q u post, s = q ++ (u ++ post) ∧ p = locAt (pre ++ q) (u ++ post) ∧
    Diagnosis E (pre ++ q) u post (k.kind.text E) (k.toklen.getD 1)

theorem Fault.here {u post : Str} (h : Diagnosis E pre u post (k.kind.text E) (k.toklen.getD 1)) :
    Fault E pre (u ++ post) (locAt pre (u ++ post)) k := by
  refine ⟨[], u, post, rfl, ?_, ?_⟩
  · rw [List.append_nil]
  · rwa [List.append_nil]

theorem Fault.after (h : Fault E (pre ++ a) b p k) : Fault E pre (a ++ b) p k := by
  obtain ⟨q, u, post, rfl, h1, h2⟩ := h
  rw [List.append_assoc] at h1 h2
  exact ⟨a ++ q, u, post, by simp, h1, h2⟩

/-! ### Expressions that record nothing -/

/-- Expressions without errors of their own. -/
inductive Silent (E : Env) : PExpr → Prop
  | lit {t ic w} : Silent E (.lit t ic w)
  | cls {cs rs ic inv w} : Silent E (.cls cs rs ic inv w)
  | any : Silent E .any
  | seq {es} : (∀ e ∈ es, Silent E e) → Silent E (.seq es)
  | choice {es} : (∀ e ∈ es, Silent E e) → Silent E (.choice es)
  | label {x e} : Silent E e → Silent E (.label x e)
  | rule {x} : Silent E (grammar x) → Silent E (.rule x)
  | not {e} : Silent E e → Silent E (.not e)
  | star {e} : Silent E e → Silent E (.star e)
  | plus {e} : Silent E e → Silent E (.plus e)
  | opt {e} : Silent E e → Silent E (.opt e)
  | action {x e} : Silent E e → (∀ fr t l v k, runAct E x fr t l ≠ .ok (v, some k)) → Silent E (.action x e)

theorem erS_none {es : List PExpr} (h : ∀ e ∈ es, ∀ fr pre s, ¬ Er E ctx e fr pre s p k) :
    ∀ {fr pre s}, ¬ ErS E ctx es fr pre s p k := by
  induction es with
  | nil => intro fr pre s h; exact h
  | cons e es ih =>
    rintro fr pre s (h1 | ⟨_, _, _, _, -, h1⟩)
    · exact h e (by simp) _ _ _ h1
    · exact ih (fun e he => h e (by simp [he])) h1

theorem erC_none {es : List PExpr} (h : ∀ e ∈ es, ∀ fr pre s, ¬ Er E ctx e fr pre s p k) :
    ∀ {pre s}, ¬ ErC E ctx es pre s p k := by
  induction es with
  | nil => intro pre s h; exact h
  | cons e es ih =>
    rintro pre s (h1 | ⟨-, h1⟩)
    · exact h e (by simp) _ _ _ h1
    · exact ih (fun e he => h e (by simp [he])) h1

theorem silent_er {e : PExpr} (h : Silent E e) : ∀ {ctx fr pre s p k}, ¬ Er E ctx e fr pre s p k := by
  induction h with
  | lit => intro _ _ _ _ _ _ h; exact er_lit h
  | cls => intro _ _ _ _ _ _ h; exact er_cls h
  | any => intro _ _ _ _ _ _ h; exact er_any h
  | seq _ ih => intro _ _ _ _ _ _ h; exact erS_none (fun e he _ _ _ => ih e he) (er_seq h)
  | choice _ ih => intro _ _ _ _ _ _ h; exact erC_none (fun e he _ _ _ => ih e he) (er_choice h)
  | label _ ih => intro _ _ _ _ _ _ h; exact ih (er_label h)
  | rule _ ih => intro _ _ _ _ _ _ h; exact ih (er_rule h)
  | not _ ih => intro _ _ _ _ _ _ h; exact ih (er_not h)
  | star _ ih => intro _ _ _ _ _ _ h; obtain ⟨_, _, -, h⟩ := er_star h; exact ih h
  | plus _ ih => intro _ _ _ _ _ _ h; obtain ⟨_, _, -, h⟩ := er_plus h; exact ih h
  | opt _ ih => intro _ _ _ _ _ _ h; exact ih (er_opt h)
  | action _ hq ih =>
    intro _ _ _ _ _ _ h
    rcases er_action h with h | ⟨_, _, _, _, _, -, hr, -⟩
    · exact ih h
    · exact hq _ _ _ _ _ hr

/-- Decide that an expression is silent by going through it. -/
macro "silent" : tactic => `(tactic| (
  repeat' first
    | exact Silent.lit
    | exact Silent.cls
    | exact Silent.any
    | refine Silent.rule ?_
    | refine Silent.label ?_
    | refine Silent.not ?_
    | refine Silent.star ?_
    | refine Silent.plus ?_
    | refine Silent.opt ?_
    | refine Silent.seq ?_
    | refine Silent.choice ?_
    | refine Silent.action ?_ (by intro _ _ _ _ _ h; simp [runAct] at h)
    | exact fun _ h => absurd h List.not_mem_nil
    | refine List.forall_mem_cons.2 ⟨?_, ?_⟩
    ))

theorem silent_ws : Silent E (.rule .ws) := by silent
theorem silent_space : Silent E (.rule .space) := by silent
theorem silent_dateTime : Silent E (.choice [.rule .dateTime, .rule .fullDate]) := by silent
theorem silent_ip : Silent E ipExpr := by unfold ipExpr; silent
theorem silent_quotedElem : Silent E quotedElem := by unfold quotedElem; silent
theorem silent_regexChar : Silent E (.rule .RegexChar) := by silent
theorem silent_opNoArgs : Silent E (.rule .opNoArgs) := by silent
theorem silent_opComp : Silent E (.rule .opComp) := by silent
theorem silent_not : Silent E (.rule .logicalNOT) := by silent
theorem silent_and : Silent E (.rule .logicalAND) := by silent
theorem silent_or : Silent E (.rule .logicalOR) := by silent
theorem silent_eof : Silent E (.rule .EOF) := by silent

/-! ### Strings -/

theorem tokResult_err {o : Option Val} {kd : ErrKind} {n : Nat} (h : tokResult o kd n = .ok (v, some k)) :
    o = none ∧ k = ⟨kd, some n⟩ := by
  cases o with
  | none =>
    simp only [tokResult, Except.ok.injEq, Prod.mk.injEq, Option.some.injEq] at h
    exact ⟨rfl, h.2.symm⟩
  | some x => simp [tokResult] at h

theorem cls_hexChar {c : Char} :
    clsMatch E [] [('0', '9'), ('a', 'f')] true false c = true ↔ HexChar E c := by
  simp [clsMatch, HexChar]

theorem elem_spelling {t : Str} (h : Ok E ctx quotedElem fr pre s v a b fr') (ht : Spelling E t) :
    Spelling E (a ++ t) := by
  unfold quotedElem at h
  simp only [ok_choice, OkC, ok_seq, OkS, ok_not, ok_any, okR, ok_lit1, noR, rule_escapedChar_no] at h
  obtain ⟨rfl, h1 | ⟨-, h1 | ⟨-, h1⟩⟩⟩ := h
  · obtain ⟨_, _, _, _, _, ⟨rfl, rfl, rfl, rfl, hc⟩, _, rfl, _, _, _, _, ⟨rfl, x, rfl, rfl, rfl⟩, _, rfl,
      rfl, rfl, rfl, rfl⟩ := h1
    have := hc x _ rfl
    push Not at this
    exact .plain this.1 this.2.1 this.2.2 ht
  · obtain ⟨_, _, _, _, _, ⟨rfl, rfl, rfl, rfl⟩, _, rfl, _, _, _, _, ⟨rfl, h⟩, _, rfl, rfl, rfl, rfl,
      rfl⟩ := h1
    unfold RuleOk at h
    simp only [grammar, ok_choice, OkC, okR] at h
    obtain ⟨_, rfl, ⟨_, _, _, h⟩ | ⟨_, ⟨_, _, _, h⟩ | h⟩⟩ := h
    · simp only [grammar, ok_cls] at h
      obtain ⟨rfl, x, rfl, rfl, rfl, hm⟩ := h
      have hx : x ∈ ['"', '\\', 'b', 'f', 'n', 'r', 't'] := by simpa [clsMatch] using hm
      simp only [List.mem_cons, List.not_mem_nil, or_false] at hx
      rcases hx with rfl | rfl | rfl | rfl | rfl | rfl | rfl
      · exact .escape .quote ht
      · exact .escape .backslash ht
      · exact .escape .b ht
      · exact .escape .f ht
      · exact .escape .n ht
      · exact .escape .r ht
      · exact .escape .t ht
    · simp only [grammar, ok_seq, OkS, okR, ok_lit1, rule_hexDigit, cls_hexChar] at h
      obtain ⟨_, _, _, _, ⟨rfl, rfl, rfl, rfl⟩, _, rfl, _, _, _, _, ⟨rfl, x1, rfl, rfl, rfl, h1⟩, _, rfl,
        _, _, _, _, ⟨rfl, x2, rfl, rfl, rfl, h2⟩, _, rfl,
        _, _, _, _, ⟨rfl, x3, rfl, rfl, rfl, h3⟩, _, rfl,
        _, _, _, _, ⟨rfl, x4, rfl, rfl, rfl, h4⟩, _, rfl, rfl, rfl, rfl, rfl⟩ := h
      exact .unicode h1 h2 h3 h4 ht
    · exact h.2.elim
  · exact h1.elim

theorem reps_spelling {vs : List PV} (h : Reps E ctx quotedElem pre s vs a b) : Spelling E a := by
  induction h with
  | nil _ => exact .nil
  | cons h1 _ ih => exact elem_spelling h1 ih

theorem reps_end {vs : List PV} {e : PExpr} (h : Reps E ctx e pre s vs a b) : No E ctx e [] (pre ++ a) b := by
  induction h with
  | nil h => rwa [List.append_nil]
  | cons _ _ ih => rwa [← List.append_assoc]

theorem Ok.clash {e : PExpr} (h : Ok E ctx e fr pre s v a b fr') (h2 : No E ctx e fr pre s) : False :=
  h.notNo h2

theorem spelling_elem (h : Spelling E a) (ha : a ≠ []) (hn : No E ctx quotedElem [] pre (a ++ b)) : False := by
  cases h with
  | nil => exact ha rfl
  | @plain c s h1 h2 h3 _ =>
    have : Ok E ctx quotedElem [] pre (c :: (s ++ b)) (.list [.nil, .bytes [c]]) [c] (s ++ b) [] := by
      unfold quotedElem
      simp only [ok_choice, OkC, ok_seq, OkS, ok_not, ok_any, noR, rule_escapedChar_no]
      refine ⟨trivial, .inl ⟨[], _, [], _, _, ⟨rfl, rfl, rfl, rfl, ?_⟩, _, rfl, _, _, _, _,
        ⟨rfl, c, rfl, rfl, rfl⟩, _, rfl, rfl, rfl, rfl, rfl⟩⟩
      rw [noHead_cons]
      rintro (h | h | h)
      · exact h1 h
      · exact h2 h
      · omega
    exact this.clash hn
  | @escape c d s hc _ =>
    have : Ok E ctx quotedElem [] pre ('\\' :: c :: (s ++ b)) (.list [.bytes ['\\'], .bytes [c]]) ['\\', c] (s ++ b) [] := by
      unfold quotedElem
      simp only [ok_choice, OkC, ok_seq, OkS, ok_not, no_seq, NoS, no_not, okR, rule_escapedChar, ok_lit1]
      refine ⟨trivial, .inr ⟨.inl ⟨_, _, _, _, rfl, '\\', rfl, rfl, rfl, .inr (.inl rfl)⟩, .inl ⟨[], _, ['\\'], _, _,
        ⟨rfl, rfl, rfl, rfl⟩, [c], rfl, _, [c], s ++ b, _, ⟨rfl, ?_⟩, [], rfl, rfl, rfl, rfl, rfl⟩⟩⟩
      unfold RuleOk
      simp only [grammar, ok_choice, OkC, okR, RuleOk, ok_cls]
      refine ⟨[], rfl, .inl ⟨[], rfl, [], rfl, c, rfl, rfl, rfl, ?_⟩⟩
      cases hc <;> rfl
    exact this.clash hn
  | @unicode a1 b1 c d s h1 h2 h3 h4 _ =>
    have : Ok E ctx quotedElem [] pre ('\\' :: 'u' :: a1 :: b1 :: c :: d :: (s ++ b))
        (.list [.bytes ['\\'], .list [.bytes ['u'], .bytes [a1], .bytes [b1], .bytes [c], .bytes [d]]])
        ['\\', 'u', a1, b1, c, d] (s ++ b) [] := by
      unfold quotedElem
      simp only [ok_choice, OkC, ok_seq, OkS, ok_not, no_seq, NoS, no_not, okR, rule_escapedChar, ok_lit1]
      refine ⟨trivial, .inr ⟨.inl ⟨_, _, _, _, rfl, '\\', rfl, rfl, rfl, .inr (.inl rfl)⟩, .inl ⟨[], _, ['\\'], _, _,
        ⟨rfl, rfl, rfl, rfl⟩, ['u', a1, b1, c, d], rfl, _, ['u', a1, b1, c, d], s ++ b, _, ⟨rfl, ?_⟩, [], rfl,
        rfl, rfl, rfl, rfl⟩⟩⟩
      unfold RuleOk
      simp only [grammar, ok_choice, OkC, okR, noR, RuleNo, no_cls]
      refine ⟨[], rfl, .inr ⟨?_, .inl ⟨[], rfl, ?_⟩⟩⟩
      · intro x t hx
        cases hx
        rfl
      · unfold RuleOk
        simp only [grammar, ok_seq, OkS, okR, ok_lit1, rule_hexDigit, cls_hexChar]
        exact ⟨_, _, _, _, _, ⟨rfl, rfl, rfl, rfl⟩, _, rfl, _, _, _, _, ⟨rfl, a1, rfl, rfl, rfl, h1⟩, _, rfl,
          _, _, _, _, ⟨rfl, b1, rfl, rfl, rfl, h2⟩, _, rfl, _, _, _, _,
          ⟨rfl, c, rfl, rfl, rfl, h3⟩, _, rfl, _, _, _, _, ⟨rfl, d, rfl, rfl, rfl, h4⟩, _, rfl, rfl,
          rfl, rfl, rfl⟩
    exact this.clash hn

theorem stuck_spelling (hn : No E ctx quotedElem [] pre b) (hb : NoHead (· = '"') b) : Stuck (Spelling E) '"' b := by
  refine ⟨fun t ht => hb _ t ht rfl, fun x y hxy hx => ?_⟩
  by_contra hne
  subst hxy
  exact spelling_elem hx hne hn

theorem grammar_quoted : grammar .QuotedValue = .recover .errUntermStr (.action .onQuotedValue2
    (.seq [.lit ['"'] false "\"\\\"\"".toList, .star quotedElem, .rule .EndingQuote])) (.rule .ErrUntermStr) := rfl

theorem er_quoted (h : Er E ctx (.rule .QuotedValue) fr pre s p k) : Fault E pre s p k := by
  replace h := er_rule h
  rw [grammar_quoted] at h
  replace h := er_recover h
  have hc : ({ ctx with recov := (.errUntermStr, .rule .ErrUntermStr) :: ctx.recov } : Ctx).recov =
    (.errUntermStr, .rule .ErrUntermStr) :: ctx.recov := rfl
  generalize ({ ctx with recov := (.errUntermStr, .rule .ErrUntermStr) :: ctx.recov } : Ctx) = cx at h hc
  replace h := er_action h
  rcases h with h | ⟨_, _, _, _, _, h, hr, hp⟩
  · rcases er_seq h with h | ⟨_, _, _, _, h0, h2⟩
    · exact (er_lit h).elim
    · obtain ⟨rfl, rfl, rfl, rfl⟩ := ok_lit1.1 h0
      rcases h2 with h2 | ⟨_, t, post, _, h1, h2 | ⟨_, _, _, _, -, h2⟩⟩
      · obtain ⟨_, _, -, h⟩ := er_star h2
        exact (silent_er silent_quotedElem h).elim
      · obtain ⟨rfl, _, rfl, hk⟩ := ok_star.1 h1
        have e := hk.split
        subst e
        rcases er_choice (er_rule h2) with h | ⟨hno, h3 | ⟨-, h⟩⟩
        · exact (er_lit h).elim
        · obtain ⟨rfl, rfl⟩ := er_throw rfl hc h3
          refine ⟨'"' :: t, [], post, rfl, by simp, ?_⟩
          refine .openString (q := pre) (s := t) rfl (reps_spelling hk) ?_ rfl
          exact stuck_spelling (reps_end hk) (no_lit1.1 hno)
        · exact h.elim
      · exact h2.elim
  · simp only [ok_seq, OkS, ok_lit1, ok_star, okR, rule_endingQuote hc] at h
    obtain ⟨_, _, _, _, ⟨rfl, rfl, rfl, rfl⟩, _, rfl, _, t, _, _, ⟨rfl, _, rfl, h⟩, _, rfl, _, _, post, _,
      ⟨rfl, rfl, rfl, rfl⟩, _, rfl, rfl, rfl, rfl, rfl⟩ := h
    have e := h.split
    subst e
    obtain ⟨ho, rfl⟩ := tokResult_err hr
    subst hp
    have e : '"' :: (t ++ '"' :: post) = ('"' :: (t ++ ['"'])) ++ post := by simp
    rw [e]
    refine .here (.string (s := t) (reps_spelling h) rfl ?_)
    intro x hx
    have := unquoteBody_of hx
    have h2 : unquote ('"' :: (t ++ ['"'])) = none := by simpa using ho
    rw [show unquote ('"' :: (t ++ ['"'])) = unquoteBody (t ++ ['"']) from rfl, this] at h2
    cases h2

/-! ### Regular expressions -/

theorem regexBody_char (h : RegexBody a) (ha : a ≠ []) (hn : No E ctx (.rule .RegexChar) [] pre (a ++ b)) : False := by
  cases h with
  | nil => exact ha rfl
  | @plain c s h1 h2 h3 _ =>
    exact (okR.2 ⟨rfl, rule_regexChar.2 (.inl ⟨c, rfl, rfl, h1, h2, h3, rfl⟩)⟩ :
      Ok E ctx (.rule .RegexChar) [] pre (c :: (s ++ b)) _ [c] (s ++ b) []).clash hn
  | @escape c s h1 _ =>
    exact (okR.2 ⟨rfl, rule_regexChar.2 (.inr ⟨c, rfl, rfl, h1, rfl⟩)⟩ :
      Ok E ctx (.rule .RegexChar) [] pre ('\\' :: c :: (s ++ b)) _ ['\\', c] (s ++ b) []).clash hn

theorem stuck_regex (hn : No E ctx (.rule .RegexChar) [] pre b) (hb : NoHead (· = '/') b) : Stuck RegexBody '/' b := by
  refine ⟨fun t ht => hb _ t ht rfl, fun x y hxy hx => ?_⟩
  by_contra hne
  subst hxy
  exact regexBody_char hx hne hn

theorem er_regex (hv : ValuePlace E pre) (h : Er E ctx (.rule .RegexValue) fr pre s p k) : Fault E pre s p k := by
  replace h := er_recover (er_rule h)
  have hc : ({ ctx with recov := (.errUntermRegex, .rule .ErrUntermRegex) :: ctx.recov } : Ctx).recov =
    (.errUntermRegex, .rule .ErrUntermRegex) :: ctx.recov := rfl
  generalize ({ ctx with recov := (.errUntermRegex, .rule .ErrUntermRegex) :: ctx.recov } : Ctx) = cx at h hc
  replace h := er_action h
  rcases h with h | ⟨_, _, _, _, _, h, hr, hp⟩
  · rcases er_seq h with h | ⟨_, _, _, _, h0, h2⟩
    · exact (er_lit h).elim
    · obtain ⟨rfl, rfl, rfl, rfl⟩ := ok_lit1.1 h0
      rcases h2 with h2 | ⟨_, t, post, _, h1, h2 | ⟨_, _, _, _, -, h2⟩⟩
      · obtain ⟨_, _, -, h⟩ := er_star h2
        exact (silent_er silent_regexChar h).elim
      · obtain ⟨rfl, _, rfl, hk⟩ := ok_star.1 h1
        have e := hk.split
        subst e
        rcases er_choice (er_rule h2) with h | ⟨hno, h3 | ⟨-, h⟩⟩
        · exact (er_lit h).elim
        · obtain ⟨rfl, rfl⟩ := er_throw rfl hc h3
          refine ⟨'/' :: t, [], post, rfl, by simp, ?_⟩
          refine .openPattern (q := pre) (s := t) rfl hv (regex_body hk) ?_ rfl
          exact stuck_regex (reps_end hk) (no_lit1.1 hno)
        · exact h.elim
      · exact h2.elim
  · simp only [ok_seq, OkS, ok_lit1, ok_star, okR, rule_endingSlash hc] at h
    obtain ⟨_, _, _, _, ⟨rfl, rfl, rfl, rfl⟩, _, rfl, _, t, _, _, ⟨rfl, _, rfl, h⟩, _, rfl, _, _, post, _,
      ⟨rfl, rfl, rfl, rfl⟩, _, rfl, rfl, rfl, rfl, rfl⟩ := h
    have e := h.split
    subst e
    obtain ⟨ho, rfl⟩ := tokResult_err hr
    subst hp
    have e : '/' :: (t ++ '/' :: post) = ('/' :: (t ++ ['/'])) ++ post := by simp
    rw [e]
    refine .here (.pattern (s := t) hv (regex_body h) rfl (unescaped_iff.2 rfl) (trimmed_iff.2 rfl) ?_)
    unfold newRegexpVal at ho
    split at ho
    · cases ho
    · rename_i hf
      simpa using hf

/-! ### Numbers -/

theorem noDigit_of (h : NoHead Dig b) : NoDigit b := fun c t e hc => h c t e hc

theorem minus_of {w : Str} (h : Ok E ctx (.opt (.lit ['-'] false w)) fr pre s v a b fr') : Minus a := by
  rw [ok_opt] at h
  rcases h.2 with ⟨_, h⟩ | h
  · rw [ok_lit1] at h; exact .inr h.2.1
  · exact .inl h.2.2.1

theorem intText_ex {m : Str} (hm : Minus m) (ha : a ≠ []) (hd : AllDigits a) : ∃ n, IntText (m ++ a) n := by
  rcases hm with rfl | rfl
  · exact ⟨_, [], false, a, .none, ha, hd, rfl, rfl⟩
  · exact ⟨_, ['-'], true, a, .minus, ha, hd, rfl, rfl⟩

theorem silent_int : Silent E (.seq [.opt (.lit ['-'] false "\"-\"".toList),
    .plus (.cls [] [('0', '9')] false false "[0-9]".toList)]) := by silent

theorem silent_float : Silent E (.seq [.opt (.lit ['-'] false "\"-\"".toList),
        .plus (.cls [] [('0', '9')] false false "[0-9]".toList),
        .lit ['.'] false "\".\"".toList,
        .plus (.cls [] [('0', '9')] false false "[0-9]".toList)]) := by silent

theorem er_int (hv : ValuePlace E pre) (h : Er E ctx (.rule .IntValue) fr pre s p k) : Fault E pre s p k := by
  replace h := er_action (er_rule h)
  rcases h with h | ⟨_, u, post, _, _, h, hr, hp⟩
  · exact (silent_er silent_int h).elim
  · have e := h.1
    subst e hp
    simp only [ok_seq, OkS] at h
    obtain ⟨_, m, _, _, h1, _, rfl, _, a, _, _, h2, _, rfl, rfl, rfl, -, -⟩ := h
    obtain ⟨-, -, ha, hd, hb⟩ := plus_digits h2
    have hm := minus_of h1
    rw [List.append_nil] at hr ⊢
    simp only [runAct] at hr
    split at hr
    · simp at hr
    · rename_i hn
      simp only [Except.ok.injEq, Prod.mk.injEq, Option.some.injEq] at hr
      obtain ⟨-, rfl⟩ := hr
      obtain ⟨n, hi⟩ := intText_ex hm ha hd
      refine .here (.integer hv hm ha hd rfl (noDigit_of hb) hi ?_)
      intro hr
      unfold newIntVal at hn
      rw [(parseInt64_iff _ n).2 ⟨hi, hr⟩] at hn
      cases hn

theorem er_float (hv : ValuePlace E pre) (h : Er E ctx (.rule .FloatValue) fr pre s p k) : Fault E pre s p k := by
  replace h := er_action (er_rule h)
  rcases h with h | ⟨_, u, post, _, _, h, hr, hp⟩
  · exact (silent_er silent_float h).elim
  · have e := h.1
    subst e hp
    simp only [ok_seq, OkS] at h
    obtain ⟨_, m, _, _, h1, _, rfl, _, a, _, _, h2, _, rfl, _, _, _, _, h3, _, rfl, _, b, _, _, h4, _, rfl, rfl, rfl,
      -, -⟩ := h
    obtain ⟨-, -, ha, hd, -⟩ := plus_digits h2
    obtain ⟨-, -, hb, hd2, hpost⟩ := plus_digits h4
    obtain ⟨-, rfl, -, -⟩ := ok_lit1.1 h3
    have hm := minus_of h1
    have e : m ++ (a ++ (['.'] ++ (b ++ []))) = m ++ (a ++ '.' :: b) := by simp
    rw [e] at hr ⊢
    obtain ⟨ho, rfl⟩ := tokResult_err hr
    obtain ⟨q, hq⟩ := decText_float hm ha hd hd2
    refine .here (.float hv hm ha hd hb hd2 rfl (noDigit_of hpost) hq ?_)
    intro x hx
    unfold newFloatVal parseFloat at ho
    rw [(decimalValue_iff _ q).2 hq] at ho
    simp only [hx] at ho
    cases ho

/-! ### Addresses -/

theorem optDigit_of (h : Ok E ctx (.opt digit) fr pre s v a b fr') : a.length ≤ 1 ∧ AllDigits a := by
  rw [ok_opt] at h
  rcases h.2 with ⟨_, h⟩ | h
  · obtain ⟨-, y, rfl, -, -, hy⟩ := ok_digit.1 h
    refine ⟨by simp, ?_⟩
    intro c hc
    simp at hc; subst hc; exact hy
  · rw [h.2.2.1]
    exact ⟨by simp, by simp [AllDigits]⟩

theorem allDigits_one {x : Char} (h : Dig x) : AllDigits [x] := by
  intro c hc
  simp at hc; subst hc; exact h

theorem octet_of (h : RuleOk E ctx .Octet pre s v a b) : Digits 3 a := by
  unfold RuleOk at h
  simp only [grammar, ok_seq, OkS] at h
  obtain ⟨_, _, _, _, _, h0, _, rfl, _, a1, _, _, h1, _, rfl, _, a2, _, _, h2, _, rfl, rfl, -, -, -⟩ := h
  obtain ⟨-, x, rfl, -, -, hx⟩ := ok_digit.1 h0
  obtain ⟨l1, d1⟩ := optDigit_of h1
  obtain ⟨l2, d2⟩ := optDigit_of h2
  refine ⟨by simp, by simp; omega, ?_⟩
  exact AllDigits.append (allDigits_one hx) (AllDigits.append d1 (by simpa using d2))

theorem cidr_of (h : RuleOk E ctx .CIDRBlock pre s v a b) : ∃ e, Digits 2 e ∧ a = '/' :: e := by
  unfold RuleOk at h
  simp only [grammar, ok_seq, OkS] at h
  obtain ⟨_, _, _, _, _, h0, _, rfl, _, _, _, _, h1, _, rfl, _, a2, _, _, h2, _, rfl, rfl, -, -, -⟩ := h
  obtain ⟨-, rfl, -, -⟩ := ok_lit1.1 h0
  obtain ⟨-, x, rfl, -, -, hx⟩ := ok_digit.1 h1
  obtain ⟨l2, d2⟩ := optDigit_of h2
  refine ⟨x :: a2, ⟨by simp, by simp; omega, ?_⟩, by simp⟩
  exact AllDigits.append (allDigits_one hx) d2

theorem ip_shape (h : Ok E ctx ipExpr fr pre s v a b fr') : NetShape a := by
  unfold ipExpr at h
  simp only [ok_seq, OkS, okR, ok_lit1] at h
  obtain ⟨_, a1, _, _, ⟨-, h1⟩, _, rfl, _, _, _, _, ⟨-, rfl, -⟩, _, rfl, _, a2, _, _, ⟨-, h2⟩, _, rfl, _, _, _, _, ⟨-, rfl, -⟩, _, rfl,
    _, a3, _, _, ⟨-, h3⟩, _, rfl, _, _, _, _, ⟨-, rfl, -⟩, _, rfl, _, a4, _, _, ⟨-, h4⟩, _, rfl, _, c, _, _, h5, _, rfl, rfl, -, -,
    -⟩ := h
  refine ⟨a1, a2, a3, a4, c, octet_of h1, octet_of h2, octet_of h3, octet_of h4, ?_, by simp⟩
  rw [ok_opt] at h5
  rcases h5.2 with ⟨_, h⟩ | h
  · exact .inr (cidr_of (okR.1 h).2)
  · exact .inl h.2.2.1

theorem er_ip (hv : ValuePlace E pre) (h : Er E ctx (.rule .IPValue) fr pre s p k) : Fault E pre s p k := by
  replace h := er_action (er_rule h)
  rcases h with h | ⟨_, u, post, _, _, h, hr, hp⟩
  · exact (silent_er silent_ip h).elim
  · have e := h.1
    subst e hp
    have hs := ip_shape h
    obtain ⟨ho, rfl⟩ := tokResult_err hr
    refine .here (.network hv hs ?_ rfl)
    intro S hS
    unfold newNetVal at ho
    dsimp only at ho
    rcases hS with ⟨x, hx, -⟩ | ⟨t, x, n, ht, hn, rfl, -⟩
    · rw [if_neg hx.noSlash, (parsePrefix_iff _ ⟨x, 32⟩).2 ⟨u, hx, by norm_num, by
        rw [show numeral 32 = ['3', '2'] by decide +kernel]; rfl⟩] at ho
      cases ho
    · rw [if_pos (by simp), (parsePrefix_iff _ ⟨x, n⟩).2 ⟨t, ht, hn, rfl⟩] at ho
      cases ho

/-! ### Times -/

theorem digit2_of (h : RuleOk E ctx .Digit2 pre s v a b) : AllDigits a ∧ a.length = 2 := by
  unfold RuleOk at h
  simp only [grammar, ok_seq, OkS] at h
  obtain ⟨_, _, _, _, _, h0, _, rfl, _, _, _, _, h1, _, rfl, rfl, -, -, -⟩ := h
  obtain ⟨-, x, rfl, -, -, hx⟩ := ok_digit.1 h0
  obtain ⟨-, y, rfl, -, -, hy⟩ := ok_digit.1 h1
  exact ⟨AllDigits.append (allDigits_one hx) (allDigits_one hy), rfl⟩

theorem digit4_of (h : RuleOk E ctx .Digit4 pre s v a b) : AllDigits a ∧ a.length = 4 := by
  unfold RuleOk at h
  simp only [grammar, ok_seq, OkS] at h
  obtain ⟨_, _, _, _, _, h0, _, rfl, _, _, _, _, h1, _, rfl, _, _, _, _, h2, _, rfl, _, _, _, _, h3, _, rfl, rfl, -, -, -⟩ := h
  obtain ⟨-, x, rfl, -, -, hx⟩ := ok_digit.1 h0
  obtain ⟨-, y, rfl, -, -, hy⟩ := ok_digit.1 h1
  obtain ⟨-, z, rfl, -, -, hz⟩ := ok_digit.1 h2
  obtain ⟨-, w, rfl, -, -, hw⟩ := ok_digit.1 h3
  exact ⟨AllDigits.append (allDigits_one hx) (AllDigits.append (allDigits_one hy)
    (AllDigits.append (allDigits_one hz) (allDigits_one hw))), rfl⟩

theorem two_of {x : Rule} (hx : grammar x = .rule .Digit2) (h : RuleOk E ctx x pre s v a b) :
    AllDigits a ∧ a.length = 2 := by
  unfold RuleOk at h
  rw [hx] at h
  obtain ⟨_, h⟩ := h
  exact digit2_of (okR.1 h).2

theorem fullDate_of (h : RuleOk E ctx .fullDate pre s v a b) : DateShape a := by
  unfold RuleOk at h
  simp only [show grammar .fullDate = .seq [.rule .dateFullyear, .lit ['-'] false "\"-\"".toList, .rule .dateMonth,
      .lit ['-'] false "\"-\"".toList, .rule .dateMday] from rfl, ok_seq, OkS, okR, ok_lit1] at h
  obtain ⟨_, _, a1, _, _, ⟨-, h1⟩, _, rfl, _, _, _, _, ⟨-, rfl, -⟩, _, rfl, _, a2, _, _, ⟨-, h2⟩, _, rfl, _, _, _, _, ⟨-, rfl, -⟩, _, rfl,
    _, a3, _, _, ⟨-, h3⟩, _, rfl, rfl, -⟩ := h
  unfold RuleOk at h1
  obtain ⟨_, h1⟩ := h1
  obtain ⟨d1, l1⟩ := digit4_of (okR.1 h1).2
  obtain ⟨d2, l2⟩ := two_of rfl h2
  obtain ⟨d3, l3⟩ := two_of rfl h3
  exact ⟨a1, a2, a3, d1, l1, d2, l2, d3, l3, by simp⟩

theorem zone_of (h : RuleOk E ctx .timeOffset pre s v a b) : ZoneShape E a := by
  unfold RuleOk at h
  simp only [show grammar .timeOffset = .choice [.lit ['z'] true "\"Z\"i".toList, .rule .timeNumoffset] from rfl, ok_choice, OkC,
    okR] at h
  obtain ⟨_, -, ⟨_, h⟩ | ⟨-, ⟨_, -, h⟩ | h⟩⟩ := h
  · obtain ⟨-, -, -, h⟩ := ok_litI.1 h
    cases a with
    | nil => simp at h
    | cons c a =>
      simp only [List.map_cons, List.cons.injEq, List.map_eq_nil_iff] at h
      obtain ⟨hz, rfl⟩ := h
      exact .inl ⟨c, hz, rfl⟩
  · unfold RuleOk at h
    simp only [show grammar .timeNumoffset = .seq [.choice [.lit ['+'] false "\"+\"".toList, .lit ['-'] false "\"-\"".toList],
      .rule .timeHour, .lit [':'] false "\":\"".toList, .rule .timeMinute] from rfl, ok_seq, OkS, okR, ok_lit1, ok_choice, OkC] at h
    obtain ⟨_, _, a1, _, _, ⟨-, h1⟩, _, rfl, _, a2, _, _, ⟨-, h2⟩, _, rfl, _, _, _, _, ⟨-, rfl, -⟩, _, rfl, _, a3, _, _, ⟨-, h3⟩, _, rfl,
      rfl, -⟩ := h
    obtain ⟨d2, l2⟩ := two_of rfl h2
    obtain ⟨d3, l3⟩ := two_of rfl h3
    rcases h1 with ⟨_, -, rfl, -⟩ | ⟨-, ⟨_, -, rfl, -⟩ | h⟩
    · exact .inr ⟨'+', a2, a3, .inl rfl, d2, l2, d3, l3, by simp⟩
    · exact .inr ⟨'-', a2, a3, .inr rfl, d2, l2, d3, l3, by simp⟩
    · exact h.2.elim
  · exact h.2.elim

theorem dateTime_of (h : RuleOk E ctx .dateTime pre s v a b) : StampShape E a := by
  unfold RuleOk at h
  simp only [show grammar .dateTime = .seq [.rule .fullDate, .choice [.lit ['t'] true "\"T\"i".toList,
        .lit [' '] false "\" \"".toList], .rule .fullTime] from rfl, ok_seq, OkS, okR, ok_choice, OkC] at h
  obtain ⟨_, _, d, _, _, ⟨-, h1⟩, _, rfl, _, c, _, _, ⟨-, h2⟩, _, rfl, _, t, _, _, ⟨-, h3⟩, _, rfl, rfl, -⟩ := h
  have hc : ∃ x, c = [x] ∧ (goLower E x = 't' ∨ x = ' ') := by
    rcases h2 with ⟨_, h⟩ | ⟨-, ⟨_, h⟩ | h⟩
    · obtain ⟨-, -, -, h⟩ := ok_litI.1 h
      cases c with
      | nil => simp at h
      | cons x c =>
        simp only [List.map_cons, List.cons.injEq, List.map_eq_nil_iff] at h
        obtain ⟨hz, rfl⟩ := h
        exact ⟨x, rfl, .inl hz⟩
    · obtain ⟨-, rfl, -, -⟩ := ok_lit1.1 h
      exact ⟨_, rfl, .inr rfl⟩
    · exact h.2.elim
  obtain ⟨x, rfl, hx⟩ := hc
  unfold RuleOk at h3
  simp only [show grammar .fullTime = .seq [.rule .partialTime, .rule .timeOffset] from rfl, ok_seq, OkS, okR] at h3
  obtain ⟨_, _, t1, _, _, ⟨-, h3⟩, _, rfl, _, z, _, _, ⟨-, h4⟩, _, rfl, rfl, -⟩ := h3
  unfold RuleOk at h3
  simp only [show grammar .partialTime = .seq [.rule .timeHour, .lit [':'] false "\":\"".toList, .rule .timeMinute,
      .lit [':'] false "\":\"".toList, .rule .timeSecond, .opt (.rule .timeSecfrac)] from rfl, ok_seq, OkS, okR, ok_lit1] at h3
  obtain ⟨_, _, a1, _, _, ⟨-, k1⟩, _, rfl, _, _, _, _, ⟨-, rfl, -⟩, _, rfl, _, a2, _, _, ⟨-, k2⟩, _, rfl, _, _, _, _, ⟨-, rfl, -⟩, _, rfl,
    _, a3, _, _, ⟨-, k3⟩, _, rfl, _, f, _, _, k4, _, rfl, rfl, -⟩ := h3
  obtain ⟨d1, l1⟩ := two_of rfl k1
  obtain ⟨d2, l2⟩ := two_of rfl k2
  obtain ⟨d3, l3⟩ := two_of rfl k3
  refine ⟨d, x, a1, a2, a3, f, z, fullDate_of h1, hx, d1, l1, d2, l2, d3, l3, ?_, zone_of h4, by simp⟩
  rw [ok_opt] at k4
  rcases k4.2 with ⟨_, h⟩ | h
  · right
    have h := (okR.1 h).2
    unfold RuleOk at h
    simp only [grammar, ok_seq, OkS, ok_lit1] at h
    obtain ⟨_, _, _, _, _, ⟨-, rfl, -⟩, _, rfl, _, ds, _, _, hz, _, rfl, rfl, -⟩ := h
    obtain ⟨-, -, h1, h2, -⟩ := plus_digits hz
    exact ⟨ds, h1, h2, by simp⟩
  · exact .inl h.2.2.1

theorem er_time (hv : ValuePlace E pre) (h : Er E ctx (.rule .Timestamp) fr pre s p k) : Fault E pre s p k := by
  replace h := er_action (er_rule h)
  rcases h with h | ⟨_, u, post, _, _, h, hr, hp⟩
  · exact (silent_er silent_dateTime h).elim
  · have e := h.1
    subst e hp
    obtain ⟨ho, rfl⟩ := tokResult_err hr
    have hs : DateShape u ∨ StampShape E u := by
      simp only [ok_choice, OkC, okR] at h
      obtain ⟨-, ⟨_, -, h⟩ | ⟨-, ⟨_, -, h⟩ | h⟩⟩ := h
      · exact .inr (dateTime_of h)
      · exact .inl (fullDate_of h)
      · exact h.2.elim
    unfold newTimeVal at ho
    refine .here (.time hv hs ?_ ?_)
    · intro i hi
      rw [if_pos (day_len hi), (parseDay_iff u i).2 hi] at ho
      cases ho
    · intro i hi
      rw [if_neg (stamp_len hi), (parseRFC3339_iff u i).2 hi] at ho
      cases ho

end Aql
