import Verif.Proofs.Wrong
/-!
What is said about a value that is wrong.
-/

namespace Aql

open Spec

variable {E : Env} {ctx : Ctx} {fr fr' : VFrame} {pre s a b : Str} {v : PV} {p : Loc} {k : RecErr}

/-! ### Runs that must fail -/

/-- The recovery stack holds plain expressions. -/
def Sane (ctx : Ctx) : Prop :=
  CtxOk ctx ∧ (ctx.recov.all fun x => wtE x.2 && (binds x.2).isEmpty) = true

theorem Sane.nil : Sane ⟨false, []⟩ := ⟨fun p hp => absurd hp (by simp), rfl⟩

theorem Sane.add {x : FailLabel} {y : Rule} (h : Sane ctx) (hy : rcost y ≤ 2) :
    Sane { ctx with recov := (x, .rule y) :: ctx.recov } := by
  refine ⟨?_, ?_⟩
  · intro p hp
    rcases List.mem_cons.1 hp with rfl | hp
    · exact ⟨rfl, by simpa [cost] using hy⟩
    · exact h.1 p hp
  · simp only [List.all_cons, Bool.and_eq_true]
    exact ⟨⟨rfl, rfl⟩, h.2⟩

/-- What is neither read nor complained about does not match. -/
theorem no_of {e : PExpr} (hg : Sane ctx) (hw : wf e = true) (ht : wtE e = true)
    (h0 : ∀ p k, ¬ Er E ctx e fr pre s p k) (h1 : ∀ v a b g, ¬ Ok E ctx e fr pre s v a b g) : No E ctx e fr pre s := by
  have hr := run_enough (E := E) _ ctx e fr (cur pre s) hw hg.1 (Nat.le_refl _)
  rcases ho : run E ((cur pre s).rest.length * 40 + cost e) ctx e fr (cur pre s) with _ | ⟨l, r⟩
  · exact absurd ho hr
  · have hb := run_big _ _ _ _ _ _ _ ho
    have hl : errorsOf l = [] := by
      cases he : errorsOf l with
      | nil => rfl
      | cons x t => exact absurd ⟨l, r, hb, by rw [he]; rfl⟩ (h0 x.1 x.2)
    have hf := hb.shapes hl ht hg.2
    cases r with
    | ok v c g =>
      obtain ⟨a, b, -, hk⟩ := okJ_of_big hb hl
      exact absurd hk (h1 _ _ _ _)
    | fail c => exact ⟨l, c, hb, hl⟩
    | panic _ _ => exact hf.elim

/-- Every run of `e` on `s` complains with `msg`, of length `n`, about the place after `v`. -/
def Says (E : Env) (e : PExpr) (pre s v msg : Str) (n : Nat) : Prop :=
  ∃ r k, s = v ++ r ∧ k.kind.text E = msg ∧ k.toklen.getD 1 = n ∧
    ∀ ctx fr, Sane ctx → Wh E ctx e fr pre s (locAt (pre ++ v) r) k

theorem Says.mono {e e' : PExpr} {x v msg : Str} {n : Nat} (h : Says E e (pre ++ x) s v msg n)
    (hw : ∀ p k, (∀ ctx fr, Sane ctx → Wh E ctx e fr (pre ++ x) s p k) →
      ∀ ctx fr, Sane ctx → Wh E ctx e' fr pre (x ++ s) p k) : Says E e' pre (x ++ s) (x ++ v) msg n := by
  obtain ⟨r, k, rfl, h1, h2, h3⟩ := h
  refine ⟨r, k, by simp, h1, h2, ?_⟩
  have := hw _ _ h3
  simpa only [List.append_assoc] using this

theorem Says.same {e e' : PExpr} {v msg : Str} {n : Nat} (h : Says E e pre s v msg n)
    (hw : ∀ p k, (∀ ctx fr, Sane ctx → Wh E ctx e fr pre s p k) →
      ∀ ctx fr, Sane ctx → Wh E ctx e' fr pre s p k) : Says E e' pre s v msg n := by
  obtain ⟨r, k, h0, h1, h2, h3⟩ := h
  exact ⟨r, k, h0, h1, h2, hw _ _ h3⟩

/-- The complaint of an action. -/
theorem says_act {x : Rule} {act : Act} {e : PExpr} {msg : Str} {n : Nat} {v' : PV} (hx : grammar x = .action act e)
    (hc : ∀ ctx, Sane ctx → Can E ctx e pre a b)
    (hr : ∀ p, runAct E act [] a p = .ok (v', some k)) (h1 : k.kind.text E = msg) (h2 : k.toklen.getD 1 = n) :
    Says E (.rule x) pre (a ++ b) [] msg n := by
  refine ⟨a ++ b, k, rfl, h1, h2, fun ctx fr hg => ?_⟩
  rw [List.append_nil]
  refine wh_rule ?_
  rw [hx]
  obtain ⟨v, h⟩ := hc ctx hg []
  exact wh_act h (hr _)

/-! ### Strings -/

theorem quotedElem_no (h : Stuck (Spelling E) '"' s) (hg : Sane ctx) : No E ctx quotedElem [] pre s := by
  refine no_of hg (by decide) (by decide) (fun _ _ => silent_er silent_quotedElem) ?_
  intro v a b g hk
  have e := hk.1
  have hs := elem_spelling hk Spelling.nil
  rw [List.append_nil] at hs
  have := h.2 a b e hs
  subst this
  unfold quotedElem at hk
  simp only [ok_choice, OkC, ok_seq, OkS, ok_any, ok_lit1] at hk
  obtain ⟨-, ⟨_, _, _, _, _, -, _, h1, _, _, _, _, ⟨-, c, rfl, -⟩, _, rfl, -⟩ | ⟨-, ⟨_, _, _, _, _, ⟨-, rfl, -⟩, _, h1, -⟩ | ⟨-, h1⟩⟩⟩ := hk
  · simp at h1
  · simp at h1
  · exact h1

theorem quotedElem_closing (hg : Sane ctx) : No E ctx quotedElem [] pre ('"' :: s) := by
  refine no_of hg (by decide) (by decide) (fun _ _ => silent_er silent_quotedElem) ?_
  intro v a b g hk
  unfold quotedElem at hk
  simp only [ok_choice, OkC, ok_seq, OkS, ok_not, noR, rule_escapedChar_no, ok_lit1] at hk
  obtain ⟨-, ⟨_, _, _, _, _, ⟨-, -, -, -, h⟩, -⟩ | ⟨-, ⟨_, _, _, _, _, ⟨-, rfl, h, -⟩, -⟩ | ⟨-, h⟩⟩⟩ := hk
  · rw [noHead_cons] at h
    exact h (.inl rfl)
  · cases h
  · exact h

/-- Spellings are read as far as they go. -/
theorem spelling_reps (h : Spelling E a) (hb : ∀ pre, No E ctx quotedElem [] pre b) :
    ∃ vs, Reps E ctx quotedElem pre (a ++ b) vs a b := by
  induction h generalizing pre with
  | nil => exact ⟨_, .nil (hb _)⟩
  | @plain c s h1 h2 h3 _ ih =>
    obtain ⟨vs, ih⟩ := ih (pre := pre ++ [c])
    refine ⟨_, .cons (a1 := [c]) (b1 := s ++ b) (g := []) (v := .list [.nil, .bytes [c]]) ?_ ih⟩
    unfold quotedElem
    simp only [ok_choice, OkC, ok_seq, OkS, ok_not, ok_any, noR, rule_escapedChar_no]
    refine ⟨trivial, .inl ⟨[], _, [], _, _, ⟨rfl, rfl, rfl, rfl, ?_⟩, _, rfl, _, _, _, _,
      ⟨rfl, c, rfl, rfl, rfl⟩, _, rfl, rfl, rfl, rfl, rfl⟩⟩
    rw [List.cons_append, noHead_cons]
    rintro (h | h | h)
    · exact h1 h
    · exact h2 h
    · omega
  | @escape c d s hc _ ih =>
    obtain ⟨vs, ih⟩ := ih (pre := pre ++ ['\\', c])
    refine ⟨_, .cons (a1 := ['\\', c]) (b1 := s ++ b) (g := []) (v := .list [.bytes ['\\'], .bytes [c]]) ?_ ih⟩
    unfold quotedElem
    simp only [ok_choice, OkC, ok_seq, OkS, ok_not, no_seq, NoS, no_not, okR, rule_escapedChar, ok_lit1]
    refine ⟨trivial, .inr ⟨.inl ⟨_, _, _, _, rfl, '\\', rfl, rfl, rfl, .inr (.inl rfl)⟩, .inl ⟨[], _, ['\\'], _, _,
      ⟨rfl, rfl, rfl, rfl⟩, [c], rfl, _, [c], s ++ b, _, ⟨rfl, ?_⟩, [], rfl, rfl, rfl, rfl, rfl⟩⟩⟩
    unfold RuleOk
    simp only [grammar, ok_choice, OkC, okR, RuleOk, ok_cls]
    refine ⟨[], rfl, .inl ⟨[], rfl, [], rfl, c, rfl, rfl, rfl, ?_⟩⟩
    cases hc <;> rfl
  | @unicode a1 b1 c d s h1 h2 h3 h4 _ ih =>
    obtain ⟨vs, ih⟩ := ih (pre := pre ++ ['\\', 'u', a1, b1, c, d])
    refine ⟨_, .cons (a1 := ['\\', 'u', a1, b1, c, d]) (b1 := s ++ b) (g := [])
      (v := .list [.bytes ['\\'], .list [.bytes ['u'], .bytes [a1], .bytes [b1], .bytes [c], .bytes [d]]]) ?_ ih⟩
    unfold quotedElem
    simp only [ok_choice, OkC, ok_seq, OkS, ok_not, no_seq, NoS, no_not, okR, rule_escapedChar, ok_lit1]
    refine ⟨trivial, .inr ⟨.inl ⟨_, _, _, _, rfl, '\\', rfl, rfl, rfl, .inr (.inl rfl)⟩, .inl ⟨[], _, ['\\'], _, _,
      ⟨rfl, rfl, rfl, rfl⟩, ['u', a1, b1, c, d], rfl, _, ['u', a1, b1, c, d], s ++ b, _, ⟨rfl, ?_⟩, [], rfl,
      rfl, rfl, rfl, rfl⟩⟩⟩
    unfold RuleOk
    simp only [grammar, ok_choice, OkC, okR, noR, RuleNo, no_cls]
    refine ⟨[], rfl, .inr ⟨?_, .inl ⟨[], rfl, ?_⟩⟩⟩
    · intro x t hx
      cases hx
      rfl
    · unfold RuleOk
      simp only [grammar, ok_seq, OkS, okR, ok_lit1, rule_hexDigit, cls_hexChar]
      exact ⟨_, _, _, _, _, ⟨rfl, rfl, rfl, rfl⟩, _, rfl, _, _, _, _, ⟨rfl, a1, rfl, rfl, rfl, h1⟩, _, rfl,
        _, _, _, _, ⟨rfl, b1, rfl, rfl, rfl, h2⟩, _, rfl, _, _, _, _,
        ⟨rfl, c, rfl, rfl, rfl, h3⟩, _, rfl, _, _, _, _, ⟨rfl, d, rfl, rfl, rfl, h4⟩, _, rfl, rfl,
        rfl, rfl, rfl⟩

theorem says_string {v msg : Str} {n : Nat} (h : WrongString E s v msg n) : Says E (.rule .QuotedValue) pre s v msg n := by
  cases h with
  | @half t u post hs hu hno =>
    subst hu
    refine ⟨_, ⟨.badString, some ('"' :: (t ++ ['"'])).length⟩, rfl, ?_, rfl, fun ctx fr hg => ?_⟩
    · rfl
    · rw [List.append_nil]
      refine wh_rule ?_
      rw [grammar_quoted]
      refine wh_recover ?_
      have hg' := hg.add (x := .errUntermStr) (y := .ErrUntermStr) (by decide)
      have hc : ({ ctx with recov := (.errUntermStr, .rule .ErrUntermStr) :: ctx.recov } : Ctx).recov =
        (.errUntermStr, .rule .ErrUntermStr) :: ctx.recov := rfl
      generalize ({ ctx with recov := (.errUntermStr, .rule .ErrUntermStr) :: ctx.recov } : Ctx) = cx at hg' hc
      obtain ⟨vs, hr⟩ := spelling_reps (pre := pre ++ ['"']) hs (b := '"' :: post) (fun _ => quotedElem_closing hg')
      refine wh_act (a := '"' :: (t ++ ['"'])) (b := post) (v := .list [.bytes ['"'], .list vs, .bytes ['"']]) (v' := .nil) (fr' := []) (s := '"' :: (t ++ ['"']) ++ post) ?_ ?_
      · rw [show '"' :: (t ++ ['"']) ++ post = '"' :: (t ++ '"' :: post) by simp]
        simp only [ok_seq, OkS, ok_lit1, ok_star, okR, rule_endingQuote hc]
        exact ⟨_, ['"'], _, _, ⟨rfl, rfl, rfl, rfl⟩, _, rfl, _, t, _, _, ⟨rfl, vs, rfl, hr⟩, _, rfl, _, ['"'], post, _,
          ⟨rfl, rfl, rfl, rfl⟩, _, rfl, rfl, rfl, rfl, rfl⟩
      · have hn : unquote ('"' :: (t ++ ['"'])) = none := by
          cases hu : unquote ('"' :: (t ++ ['"'])) with
          | none => rfl
          | some x =>
            have hk : RuleOk E ctx .QuotedValue pre ('"' :: (t ++ '"' :: post)) (.val (.str x (getpos (locAt pre ('"' :: (t ++ '"' :: post))) ('"' :: (t ++ ['"'])))))
                ('"' :: (t ++ ['"'])) post := by
              refine ⟨[], ?_⟩
              rw [grammar_quoted]
              simp only [ok_recover, ok_action, ok_seq, OkS, ok_lit1, ok_star, okR,
                rule_endingQuote (E := E) (ctx := { ctx with recov := (.errUntermStr, .rule .ErrUntermStr) :: ctx.recov }) rfl]
              obtain ⟨vs, hr⟩ := spelling_reps (pre := pre ++ ['"']) hs (b := '"' :: post)
                (fun _ => quotedElem_closing (hg.add (x := .errUntermStr) (y := .ErrUntermStr) (by decide)))
              exact ⟨_, ⟨_, ['"'], _, _, ⟨rfl, rfl, rfl, rfl⟩, _, rfl, _, t, _, _, ⟨rfl, vs, rfl, hr⟩, _, rfl, _, ['"'], post, _,
                ⟨rfl, rfl, rfl, rfl⟩, _, rfl, rfl, rfl, rfl, rfl⟩, by simp only [runAct, hu, tokResult, Option.map_some]⟩
            obtain ⟨-, t', x', hb, e, -⟩ := rule_quoted.1 hk
            have e : t = t' := by simpa using e
            subst e
            exact absurd hb (hno _)
        simp only [runAct, hn, tokResult, Option.map_none]
  | @unclosed t post hs hst =>
    refine ⟨post, runState .onErrUntermStr1, rfl, rfl, rfl, fun ctx fr hg => ?_⟩
    refine wh_rule ?_
    rw [grammar_quoted]
    refine wh_recover ?_
    have hg' := hg.add (x := .errUntermStr) (y := .ErrUntermStr) (by decide)
    have hc : ({ ctx with recov := (.errUntermStr, .rule .ErrUntermStr) :: ctx.recov } : Ctx).recov =
      (.errUntermStr, .rule .ErrUntermStr) :: ctx.recov := rfl
    generalize ({ ctx with recov := (.errUntermStr, .rule .ErrUntermStr) :: ctx.recov } : Ctx) = cx at hg' hc
    obtain ⟨vs, hr⟩ := spelling_reps (pre := pre ++ ['"']) hs (b := post) (fun _ => quotedElem_no hst hg')
    refine wh_action (wh_seq (.inr ⟨_, ['"'], _, _, ok_lit1.2 ⟨rfl, rfl, rfl, rfl⟩, .inr ⟨_, t, post, _,
      ok_star.2 ⟨rfl, vs, rfl, hr⟩, .inl (wh_rule (wh_choice (.inr ⟨no_lit1.2 ?_, .inl ?_⟩)))⟩⟩))
    · intro c t hc hq
      subst hq
      exact hst.1 t hc
    · have := wh_throw (E := E) (fr := []) (pre := pre ++ ['"'] ++ t) (s := post) (y := .ErrUntermStr) rfl hc
      simpa using this

/-! ### Regular expressions -/

theorem regexChar_no (h : ∀ a b, s = a ++ b → RegexBody a → a = []) (hg : Sane ctx) :
    No E ctx (.rule .RegexChar) [] pre s := by
  refine no_of hg rfl rfl (fun _ _ => silent_er silent_regexChar) ?_
  intro v a b g hk
  obtain ⟨-, hk⟩ := okR.1 hk
  have e := hk.split
  rcases rule_regexChar.1 hk with ⟨c, rfl, -, h1, h2, h3, -⟩ | ⟨c, rfl, -, h1, -⟩
  · exact absurd (h _ _ e (.plain h1 h2 h3 .nil)) (by simp)
  · exact absurd (h _ _ e (.escape h1 .nil)) (by simp)

theorem regex_row (h : RegexBody a) (hb : ∀ pre, No E ctx (.rule .RegexChar) [] pre b) :
    ∃ vs, Reps E ctx (.rule .RegexChar) pre (a ++ b) vs a b := by
  induction h generalizing pre with
  | nil => exact ⟨_, .nil (hb _)⟩
  | @plain c s h1 h2 h3 _ ih =>
    obtain ⟨vs, ih⟩ := ih (pre := pre ++ [c])
    exact ⟨_, .cons (a1 := [c]) (okR.2 ⟨rfl, rule_regexChar.2 (.inl ⟨c, rfl, rfl, h1, h2, h3, rfl⟩)⟩) ih⟩
  | @escape c s h1 _ ih =>
    obtain ⟨vs, ih⟩ := ih (pre := pre ++ ['\\', c])
    exact ⟨_, .cons (a1 := ['\\', c]) (okR.2 ⟨rfl, rule_regexChar.2 (.inr ⟨c, rfl, rfl, h1, rfl⟩)⟩) ih⟩

theorem says_pattern {t u post x src : Str} (hb : RegexBody t) (hu : u = '/' :: (t ++ ['/'])) (h1 : Unescaped u x)
    (h2 : Trimmed x src) (h3 : reCompiles E src = false) : Says E (.rule .RegexValue) pre (u ++ post) []
      ("invalid regular expression [".toList ++ x ++ "]: ".toList ++ E.reErr src) u.length := by
  subst hu
  rw [unescaped_iff] at h1
  rw [trimmed_iff] at h2
  refine ⟨_, ⟨.badRegex x, some ('/' :: (t ++ ['/'])).length⟩, rfl, by rw [← h2]; rfl, rfl, fun ctx fr hg => ?_⟩
  rw [List.append_nil]
  refine wh_rule (wh_recover ?_)
  have hc : ({ ctx with recov := (.errUntermRegex, .rule .ErrUntermRegex) :: ctx.recov } : Ctx).recov =
    (.errUntermRegex, .rule .ErrUntermRegex) :: ctx.recov := rfl
  generalize ({ ctx with recov := (.errUntermRegex, .rule .ErrUntermRegex) :: ctx.recov } : Ctx) = cx at hc
  obtain ⟨vs, hr⟩ := regex_reps (E := E) (ctx := cx) (pre := pre ++ ['/']) hb (b := post)
  refine wh_act (a := '/' :: (t ++ ['/'])) (b := post) (v := .list [.bytes ['/'], .list vs, .bytes ['/']]) (v' := .nil) (fr' := [])
    (s := '/' :: (t ++ ['/']) ++ post) ?_ ?_
  · rw [show '/' :: (t ++ ['/']) ++ post = '/' :: (t ++ '/' :: post) by simp]
    simp only [ok_seq, OkS, ok_lit1, ok_star, okR, rule_endingSlash hc]
    exact ⟨_, ['/'], _, _, ⟨rfl, rfl, rfl, rfl⟩, _, rfl, _, t, _, _, ⟨rfl, vs, rfl, hr⟩, _, rfl, _, ['/'], post, _,
      ⟨rfl, rfl, rfl, rfl⟩, _, rfl, rfl, rfl, rfl, rfl⟩
  · simp only [runAct, h1, newRegexpVal, h2, h3, tokResult]
    rfl

theorem says_unclosed {t post : Str} (hb : RegexBody t) (hst : Stuck RegexBody '/' post) :
    Says E (.rule .RegexValue) pre ('/' :: (t ++ post)) ('/' :: t)
      "unterminated regular expression, did you forget a closing '/'?".toList 1 := by
  refine ⟨post, runState .onErrUntermRegex1, rfl, rfl, rfl, fun ctx fr hg => ?_⟩
  refine wh_rule (wh_recover ?_)
  have hg' := hg.add (x := .errUntermRegex) (y := .ErrUntermRegex) (by decide)
  have hc : ({ ctx with recov := (.errUntermRegex, .rule .ErrUntermRegex) :: ctx.recov } : Ctx).recov =
    (.errUntermRegex, .rule .ErrUntermRegex) :: ctx.recov := rfl
  generalize ({ ctx with recov := (.errUntermRegex, .rule .ErrUntermRegex) :: ctx.recov } : Ctx) = cx at hg' hc
  obtain ⟨vs, hr⟩ := regex_row (E := E) (ctx := cx) (pre := pre ++ ['/']) hb (b := post) (fun _ => regexChar_no hst.2 hg')
  refine wh_action (wh_seq (.inr ⟨_, ['/'], _, _, ok_lit1.2 ⟨rfl, rfl, rfl, rfl⟩, .inr ⟨_, t, post, _,
    ok_star.2 ⟨rfl, vs, rfl, hr⟩, .inl (wh_rule (wh_choice (.inr ⟨no_lit1.2 ?_, .inl ?_⟩)))⟩⟩))
  · intro c t hc hq
    subst hq
    exact hst.1 t hc
  · have := wh_throw (E := E) (fr := []) (pre := pre ++ ['/'] ++ t) (s := post) (y := .ErrUntermRegex) rfl hc
    simpa using this

/-! ### Times -/

theorem dateShape_mk (h : DateShape a) : Can E ctx (.rule .fullDate) pre a b := by
  obtain ⟨p, q, r, hp, hp4, hq, hq2, hr, hr2, rfl⟩ := h
  exact .rule (.seq (.cons (.rule (digits4 hp hp4)) (.cons (a1 := ['-']) .lit1 (.cons (.rule (digits2 hq hq2))
    (.cons (a1 := ['-']) .lit1 (.one (.rule (digits2 hr hr2))))))))

theorem goLower_char {c d : Char} (hc : c.toNat < 128) (h : goLower E c = d) (hd : asciiLower c ≠ d) : False := by
  rw [goLower_ascii hc] at h
  exact hd h

theorem zoneShape_mk (h : ZoneShape E a) : Can E ctx (.rule .timeOffset) pre a b := by
  rcases h with ⟨c, hc, rfl⟩ | ⟨g, h, m, hg, h1, h2, h3, h4, rfl⟩
  · exact .rule (.left (.litI hc))
  · refine .rule (.right ?_ (.left (.rule (.seq (.cons (a1 := [g]) ?_ (.cons (.rule (digits2 h1 h2))
      (.cons (a1 := [':']) .lit1 (.one (.rule (digits2 h3 h4))))))))))
    · rw [no_litI1, List.cons_append, noHead_cons]
      intro hz
      rcases hg with rfl | rfl
      · exact goLower_char (by decide) hz (by decide)
      · exact goLower_char (by decide) hz (by decide)
    · rcases hg with rfl | rfl
      · exact .left .lit1
      · exact .right (by rw [no_lit1]; simp only [List.cons_append, noHead_cons]; decide) (.left .lit1)

theorem zoneShape_head (h : ZoneShape E a) : NoHead Dig (a ++ b) ∧ NoHead (· = '.') (a ++ b) := by
  rcases h with ⟨c, hc, rfl⟩ | ⟨g, h, m, hg, -, -, -, -, rfl⟩
  · simp only [List.cons_append, noHead_cons]
    constructor
    · intro hd
      have h2 : c.toNat < 128 := by
        have := hd.2
        rw [Char.le_def, UInt32.le_iff_toNat_le] at this
        exact Nat.lt_of_le_of_lt this (by decide)
      rw [goLower_ascii h2] at hc
      unfold asciiLower at hc
      rw [if_neg] at hc
      · subst hc; exact absurd hd (by decide)
      · rintro ⟨h3, -⟩
        have h4 := hd.2
        rw [Char.le_def, UInt32.le_iff_toNat_le] at h3 h4
        exact absurd (Nat.le_trans h3 h4) (by decide)
    · rintro rfl
      exact goLower_char (by decide) hc (by decide)
  · simp only [List.cons_append, noHead_cons]
    rcases hg with rfl | rfl <;> decide

theorem stampShape_mk (h : StampShape E a) : Can E ctx (.rule .dateTime) pre a b := by
  obtain ⟨d, c, h, m, sec, f, z, hd, hc, h1, h2, h3, h4, h5, h6, hf, hz, rfl⟩ := h
  have e : d ++ c :: (h ++ ':' :: (m ++ ':' :: (sec ++ (f ++ z)))) =
    d ++ ([c] ++ ((h ++ ([':'] ++ (m ++ ([':'] ++ (sec ++ f))))) ++ z)) := by simp
  rw [e]
  refine .rule (.seq (.cons (dateShape_mk hd) (.cons ?_ (.one (.rule (.seq (.cons
    (.rule (.seq (.cons (.rule (digits2 h1 h2)) (.cons .lit1 (.cons (.rule (digits2 h3 h4)) (.cons .lit1 (.cons (.rule (digits2 h5 h6))
      (.one ?_)))))))) (.one (zoneShape_mk hz)))))))))
  · by_cases ht : goLower E c = 't'
    · exact .left (.litI ht)
    · rcases hc with hc | rfl
      · exact absurd hc ht
      · exact .right (by rw [no_litI1, List.append_assoc, List.singleton_append, noHead_cons]; exact ht) (.left .lit1)
  · rcases hf with rfl | ⟨ds, hds, hds2, rfl⟩
    · refine .optNone (noR.2 ?_)
      unfold RuleNo
      simp only [grammar, no_seq, NoS, no_lit1]
      exact .inl (zoneShape_head hz).2
    · exact .opt (.rule (.seq (.cons (a1 := ['.']) .lit1 (.one (.digits hds hds2 (zoneShape_head hz).1)))))

theorem dateShape_length (h : DateShape a) : a.length = 10 := by
  obtain ⟨p, q, r, hp, hp4, hq, hq2, hr, hr2, rfl⟩ := h
  simp [hp4, hq2, hr2]

theorem stampShape_length (h : StampShape E a) : a.length ≠ 10 := by
  obtain ⟨d, c, h, m, sec, f, z, hd, hc, h1, h2, h3, h4, h5, h6, hf, hz, rfl⟩ := h
  simp [dateShape_length hd]

theorem says_stamp {u post : Str} (h : StampShape E u) (hno : ∀ i, ¬ StampText u i) : Says E (.rule .Timestamp) pre (u ++ post) []
    ("invalid datetime value [".toList ++ u ++ "]: ".toList ++ E.timeErr u) u.length := by
  refine says_act (k := ⟨.badTime u, some u.length⟩) (v' := .nil) rfl (fun ctx _ => .left (stampShape_mk h)) (fun p => ?_) rfl rfl
  have hn : parseRFC3339 u = none := by
    cases hp : parseRFC3339 u with
    | none => rfl
    | some i => exact absurd ((parseRFC3339_iff u i).1 hp) (hno i)
  simp only [runAct, newTimeVal, if_neg (stampShape_length h), hn]
  rfl

theorem says_day {u post : Str} (h : DateShape u) (hs : ∀ x y, u ++ post = x ++ y → ¬ StampShape E x) (hno : ∀ i, ¬ DayText u i) :
    Says E (.rule .Timestamp) pre (u ++ post) []
    ("invalid datetime value [".toList ++ u ++ "]: ".toList ++ E.timeErr u) u.length := by
  refine says_act (k := ⟨.badTime u, some u.length⟩) (v' := .nil) rfl (fun ctx hg => .right ?_ (.left (dateShape_mk h))) (fun p => ?_) rfl rfl
  · refine no_of hg rfl rfl (fun _ _ => silent_er (by silent)) ?_
    intro v a b g hk
    obtain ⟨-, hk⟩ := okR.1 hk
    exact hs _ _ hk.split (dateTime_of hk)
  have hn : parseDay u = none := by
    cases hp : parseDay u with
    | none => rfl
    | some i => exact absurd ((parseDay_iff u i).1 hp) (hno i)
  simp only [runAct, newTimeVal, if_pos (dateShape_length h), hn]
  rfl

/-! ### Addresses -/

theorem digits3_more {d : Str} {c : Char} (h : Digits 3 d) (hl : d.length ≠ 3) (hc : Dig c) : Digits 3 (d ++ [c]) := by
  obtain ⟨h1, h2, h3⟩ := h
  refine ⟨by simp, by simp; omega, ?_⟩
  intro x hx
  rcases List.mem_append.1 hx with hx | hx
  · exact h3 x hx
  · simp at hx; subst hx; exact hc

theorem octet_full (h : Digits 3 a) (hb : a.length = 3 ∨ NoHead Dig b) : Can E ctx (.rule .Octet) pre a b := by
  rcases hb with hb | hb
  · obtain ⟨-, -, h3⟩ := h
    match a, hb with
    | [c, d, e], _ =>
      exact .rule (.seq (.cons (a1 := [c]) (.digit (h3 c (by simp))) (.cons (a1 := [d]) (a2 := [e])
        (.opt (.digit (h3 d (by simp)))) (.one (.opt (.digit (h3 e (by simp))))))))
  · exact octet_mk h hb

theorem cidr_full (h : Digits 2 a) (hb : a.length = 2 ∨ NoHead Dig b) : Can E ctx (.rule .CIDRBlock) pre ('/' :: a) b := by
  rcases hb with hb | hb
  · obtain ⟨-, -, h3⟩ := h
    match a, hb with
    | [c, d], _ =>
      exact .rule (.seq (.cons (a1 := ['/']) (a2 := [c, d]) .lit1 (.cons (a1 := [c]) (a2 := [d])
        (.digit (h3 c (by simp))) (.one (.opt (.digit (h3 d (by simp))))))))
  · exact cidr_mk h hb

theorem longest_ip {u post : Str} (h : Longest NetShape u post) (hg : Sane ctx) : Can E ctx ipExpr pre u post := by
  obtain ⟨⟨a, b, c, d, sfx, ha, hb, hc, hd, hs, rfl⟩, hl⟩ := h
  have es : a ++ '.' :: (b ++ '.' :: (c ++ '.' :: (d ++ sfx))) = a ++ (['.'] ++ (b ++ (['.'] ++ (c ++ (['.'] ++ (d ++ sfx)))))) := by simp
  have key : ∀ x y, d ++ (sfx ++ post) = x ++ y → (∃ d' s', Digits 3 d' ∧ (s' = [] ∨ ∃ e, Digits 2 e ∧ s' = '/' :: e) ∧ x = d' ++ s') →
      x.length ≤ (d ++ sfx).length := by
    rintro x y hxy ⟨d', s', h1, h2, rfl⟩
    have := hl (a ++ '.' :: (b ++ '.' :: (c ++ '.' :: (d' ++ s')))) y (by simpa using hxy) ⟨a, b, c, d', s', ha, hb, hc, h1, h2, rfl⟩
    simp at this ⊢
    omega
  rw [es]
  clear es
  refine .seq (.cons (octet_full ha (.inr ?_)) (.cons .lit1 (.cons (octet_full hb (.inr ?_)) (.cons .lit1 (.cons (octet_full hc (.inr ?_))
    (.cons .lit1 (.cons (octet_full hd ?_) (.one ?_))))))))
  · simp only [List.cons_append, noHead_cons]; decide
  · simp only [List.cons_append, noHead_cons]; decide
  · simp only [List.cons_append, noHead_cons]; decide
  · by_cases hd3 : d.length = 3
    · exact .inl hd3
    · right
      rcases hs with rfl | ⟨e, -, rfl⟩
      · intro x t hx hdx
        have := key (d ++ [x]) t (by rw [hx]; simp) ⟨d ++ [x], [], digits3_more hd hd3 hdx, .inl rfl, by simp⟩
        simp at this
      · simp only [List.cons_append, noHead_cons]; decide
  · rcases hs with rfl | ⟨e, he, rfl⟩
    · refine .optNone (no_of hg rfl rfl (fun _ _ => silent_er (by silent)) ?_)
      intro v x y g hk
      obtain ⟨-, hk⟩ := okR.1 hk
      have hsp := hk.split
      obtain ⟨e, he, rfl⟩ := cidr_of hk
      have := key (d ++ '/' :: e) y (by rw [List.nil_append, hsp]; simp) ⟨d, '/' :: e, hd, .inr ⟨e, he, rfl⟩, rfl⟩
      simp at this
    · refine .opt (cidr_full he ?_)
      by_cases he2 : e.length = 2
      · exact .inl he2
      · right
        intro x t hx hdx
        obtain ⟨h1, h2, h3⟩ := he
        have := key (d ++ '/' :: (e ++ [x])) t (by rw [hx]; simp) ⟨d, '/' :: (e ++ [x]), hd, .inr ⟨e ++ [x], ⟨by simp, by simp; omega, ?_⟩, rfl⟩, rfl⟩
        · simp at this
        · intro y hy
          rcases List.mem_append.1 hy with hy | hy
          · exact h3 y hy
          · simp at hy; subst hy; exact hdx

theorem says_network {u post x : Str} (h : Longest NetShape u post) (hno : ∀ S, ¬ Denotes u S)
    (hx : x = (if '/' ∈ u then u else u ++ "/32".toList)) : Says E (.rule .IPValue) pre (u ++ post) []
      ("invalid network value [".toList ++ x ++ "]: ".toList ++ E.netErr x) u.length := by
  refine says_act (k := ⟨.badNet u, some u.length⟩) (v' := .nil) (e := ipExpr) rfl (fun ctx hg => longest_ip h hg) (fun p => ?_)
    (by subst hx; rfl) rfl
  have hn : parsePrefix (if '/' ∈ u then u else u ++ "/32".toList) = none := by
    cases hp : parsePrefix (if '/' ∈ u then u else u ++ "/32".toList) with
    | none => rfl
    | some y =>
      obtain ⟨v, hk⟩ := longest_ip (E := E) (pre := pre) h Sane.nil []
      have hk : RuleOk E ⟨false, []⟩ .IPValue pre (u ++ post) (.val (.net (if '/' ∈ u then u else u ++ "/32".toList) y (getpos (locAt pre (u ++ post)) u))) u post :=
        ⟨[], ok_action.2 ⟨_, hk, by simp only [runAct, newNetVal, hp, tokResult, Option.map_some]⟩⟩
      obtain ⟨x, hx, hl⟩ := ip_lit hk
      injection hx with hx
      generalize (if '/' ∈ u then u else u ++ "/32".toList) = z at hx
      cases hl with
      | address h => exact absurd (.inl ⟨_, h, rfl⟩) (hno _)
      | block h1 h2 h3 => exact absurd (.inr ⟨_, _, _, h1, h2, h3, rfl⟩) (hno _)
      | _ => cases hx
  simp only [runAct, newNetVal, hn]
  rfl

/-! ### Numbers -/

theorem long_noTime {c1 c2 c3 c4 c5 : Char} {t : Str} (h : AllDigits [c1, c2, c3, c4, c5]) :
    RuleNo E ctx .Timestamp pre (c1 :: c2 :: c3 :: c4 :: c5 :: t) := by
  refine timestamp_no ?_
  unfold RuleNo
  simp only [grammar, no_seq, NoS, no_lit1]
  have h4 : AllDigits [c1, c2, c3, c4] := fun c hc => h c (by
    simp only [List.mem_cons, List.not_mem_nil, or_false] at hc ⊢; tauto)
  obtain ⟨v, hk⟩ := Can.rule (E := E) (ctx := ctx) (x := .dateFullyear) (digits4 (pre := pre) (b := c5 :: t) h4 rfl) []
  refine .inr ⟨_, _, _, _, hk, .inl ?_⟩
  rw [noHead_cons]
  exact dig_ne (h c5 (by simp)) (by decide)

theorem long_noIp {c1 c2 c3 c4 : Char} {t : Str} (h : AllDigits [c1, c2, c3, c4]) :
    RuleNo E ctx .IPValue pre (c1 :: c2 :: c3 :: c4 :: t) := by
  unfold RuleNo
  simp only [grammar, no_action, no_seq, NoS, no_lit1]
  have h3 : Digits 3 [c1, c2, c3] := ⟨by simp, by simp, fun c hc => h c (by
    simp only [List.mem_cons, List.not_mem_nil, or_false] at hc ⊢; tauto)⟩
  obtain ⟨v, hk⟩ := octet_full (E := E) (ctx := ctx) (pre := pre) (b := c4 :: t) h3 (.inl rfl) []
  refine .inr ⟨_, _, _, _, hk, .inl ?_⟩
  rw [noHead_cons]
  exact dig_ne (h c4 (by simp)) (by decide)

/-- A number with many digits is neither a time nor an address. -/
theorem long_no {m t : Str} (hm : Minus m) (h1 : AllDigits a) (h2 : 4 < a.length) :
    RuleNo E ctx .Timestamp pre (m ++ (a ++ t)) ∧ RuleNo E ctx .IPValue pre (m ++ (a ++ t)) := by
  rcases hm with rfl | rfl
  · match a, h2 with
    | c1 :: c2 :: c3 :: c4 :: c5 :: a, _ =>
      exact ⟨long_noTime fun c hc => h1 c (by
        simp only [List.mem_cons, List.not_mem_nil, or_false] at hc ⊢; tauto), long_noIp fun c hc => h1 c (by
        simp only [List.mem_cons, List.not_mem_nil, or_false] at hc ⊢; tauto)⟩
  · constructor
    · refine timestamp_no ?_
      have := fullDate_no (E := E) (ctx := ctx) (pre := pre) (ds := []) (t := ['-'] ++ (a ++ t)) (by simp [AllDigits])
        (by rw [List.singleton_append, noHead_cons]; decide) (by simp)
      exact this
    · have := ip_no_int (E := E) (ctx := ctx) (pre := pre) (ds := []) (t := ['-'] ++ (a ++ t)) (by simp [AllDigits])
        (by rw [List.singleton_append, noHead_cons]; decide) (by rw [List.singleton_append, noHead_cons]; decide)
      exact this

theorem intText_unique {k n : Int} (h1 : IntText s k) (h2 : IntText s n) : k = n := by
  obtain ⟨sg, neg, ds, hs, hne, hd, rfl, rfl⟩ := h1
  obtain ⟨sg', neg', ds', hs', hne', hd', e, rfl⟩ := h2
  have hp : ∀ {c : Char} {t : Str}, AllDigits (c :: t) → c ≠ '+' ∧ c ≠ '-' := by
    intro c t h
    exact ⟨dig_ne (h c (by simp)) (by decide), dig_ne (h c (by simp)) (by decide)⟩
  cases hs <;> cases hs' <;> simp only [List.nil_append, List.singleton_append, List.cons.injEq, true_and] at e
  · subst e; rfl
  · subst e; exact absurd rfl (hp hd).1
  · subst e; exact absurd rfl (hp hd).2
  · subst e; exact absurd rfl (hp hd').1
  · subst e; rfl
  · exact absurd e.1 (by decide)
  · subst e; exact absurd rfl (hp hd').2
  · exact absurd e.1 (by decide)
  · subst e; rfl

theorem int_long {m : Str} {n : Int} (hm : Minus m) (h : IntText (m ++ a) n)
    (hr : ¬ (-(2 ^ 63 : Int) ≤ n ∧ n < 2 ^ 63)) : 4 < a.length := by
  by_contra hl
  obtain ⟨sg, neg, ds, -, -, hd, e, rfl⟩ := h
  have h1 := digitsValue_lt ds hd
  have h2 : ds.length ≤ 5 := by
    have := congrArg List.length e
    simp only [List.length_append] at this
    have hm : m.length ≤ 1 := by rcases hm with rfl | rfl <;> simp
    omega
  have h3 := Nat.pow_le_pow_right (show 0 < 10 by decide) h2
  have h4 : digitsValue ds < 10 ^ 5 := Nat.lt_of_lt_of_le h1 h3
  apply hr
  split <;> constructor <;> omega

theorem float_long {m : Str} {q : ℚ} (hm : Minus m) (ha : AllDigits a) (hb : AllDigits b) (hne : b ≠ [])
    (h : DecText (m ++ (a ++ '.' :: b)) q) (hr : ∀ x, toF64 q ≠ .fin x) : 4 < a.length := by
  by_contra hl
  obtain ⟨neg, hs⟩ : ∃ neg, SignText m neg := by
    rcases hm with rfl | rfl
    · exact ⟨_, .none⟩
    · exact ⟨_, .minus⟩
  have h' : DecText (m ++ (a ++ '.' :: b)) _ := ⟨m, neg, a, '.' :: b, b, [], 0, hs, ha, .point hb, .inr hne, .none, by simp, rfl⟩
  have e := (decimalValue_iff _ _).2 h
  rw [(decimalValue_iff _ _).2 h'] at e
  injection e with e
  refine hr _ (toF64_small ?_)
  rw [← e]
  have h1 : digitsValue a < 10 ^ 4 := Nat.lt_of_lt_of_le (digitsValue_lt a ha) (Nat.pow_le_pow_right (by decide) (by omega))
  have h2 := digitsValue_lt b hb
  have h3 : (digitsValue b : ℚ) / 10 ^ b.length ≤ 1 := by
    rw [div_le_one (by positivity)]
    exact_mod_cast h2.le
  have h4 : (0 : ℚ) ≤ (digitsValue b : ℚ) / 10 ^ b.length := by positivity
  have h5 : (digitsValue a : ℚ) ≤ 10 ^ 4 := by exact_mod_cast h1.le
  have h6 : (0 : ℚ) ≤ digitsValue a := by positivity
  rw [zpow_zero, mul_one, abs_mul]
  have h7 : |(if neg then (-1 : ℚ) else 1)| = 1 := by split <;> simp
  rw [h7, one_mul, abs_of_nonneg (by linarith)]
  have h8 : (10 : ℚ) ^ 4 + 1 ≤ 2 ^ 63 := by norm_num
  linarith

theorem noDig_of (h : NoDigit b) : NoHead Dig b := fun c t e hc => h c t e hc

theorem says_float {m u post : Str} {q : ℚ} (hm : Minus m) (ha : a ≠ []) (hd : AllDigits a) (hb : b ≠ []) (hd2 : AllDigits b)
    (hu : u = m ++ (a ++ '.' :: b)) (hp : NoDigit post) (hq : DecText u q) (hr : ∀ x, toF64 q ≠ .fin x) :
    Says E (.rule .FloatValue) pre (u ++ post) [] ("invalid float value [".toList ++ u ++ "]".toList) u.length := by
  refine says_act (k := ⟨.badFloat u, some u.length⟩) (v' := .nil) rfl (fun ctx _ => ?_) (fun p => ?_) rfl rfl
  · rw [hu]
    refine .seq (.cons (minus_mk hm ?_) (.cons (.digits ha hd ?_) (.cons (a1 := ['.']) .lit1
      (.one (.digits hb hd2 (noDig_of hp))))))
    · rw [List.append_assoc]
      exact digits_noHead hd ha fun c hc h => dig_ne hc (by decide) h
    · rw [List.cons_append, noHead_cons]; decide
  · simp only [runAct, newFloatVal, parseFloat]
    rw [(decimalValue_iff _ q).2 hq]
    cases hf : toF64 q with
    | fin x => exact absurd hf (hr x)
    | inf s => simp only [hf, tokResult]
    | nan => simp only [hf, tokResult]

theorem says_int {m u post : Str} {n : Int} (hm : Minus m) (ha : a ≠ []) (hd : AllDigits a)
    (hu : u = m ++ a) (hp : NoDigit post) (hq : IntText u n) (hr : ¬ (-(2 ^ 63 : Int) ≤ n ∧ n < 2 ^ 63)) :
    Says E (.rule .IntValue) pre (u ++ post) [] ("invalid integer value [".toList ++ u ++ "]".toList) 1 := by
  refine ⟨u ++ post, ⟨.badInt u, none⟩, rfl, rfl, rfl, fun ctx fr hg => ?_⟩
  rw [List.append_nil]
  refine wh_rule ?_
  have hc : Can E ctx (.seq [.opt (.lit ['-'] false "\"-\"".toList),
    .plus (.cls [] [('0', '9')] false false "[0-9]".toList)]) pre u post := by
    rw [hu]
    refine .seq (.cons (minus_mk hm ?_) (.one (.digits ha hd (noDig_of hp))))
    exact digits_noHead hd ha fun c hc h => dig_ne hc (by decide) h
  obtain ⟨v, h⟩ := hc []
  refine wh_act (act := .onIntValue1) (v' := .val (.int 0 u (getpos (locAt pre (u ++ post)) u))) h ?_
  have hn : parseInt64 u = none := by
    cases hi : parseInt64 u with
    | none => rfl
    | some k =>
      obtain ⟨h1, h2⟩ := (parseInt64_iff _ _).1 hi
      have : k = n := by
        exact intText_unique h1 hq
      subst this
      exact absurd h2 hr
  simp only [runAct, newIntVal, hn, Option.map_none]

end Aql
