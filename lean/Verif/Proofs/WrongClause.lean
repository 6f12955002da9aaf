import Verif.Proofs.Flaw
/-!
What is said about a comparison with a wrong value or name.
-/

namespace Aql

open Spec

variable {E : Env} {ctx : Ctx} {fr fr' : VFrame} {pre s a b : Str} {v : PV} {p : Loc} {k : RecErr}

/-! ### Values -/

theorem says_bare {x : Rule} {v msg : Str} {n : Nat} (hq : NoHead (· = '"') s) (hr : NoHead (· = '/') s)
    (h : Says E (.rule x) pre s v msg n)
    (hx : ∀ ctx p k, (∀ fr, Wh E ctx (.rule x) fr pre s p k) →
      WhC E ctx [.rule .Timestamp, .rule .IPValue, .rule .FloatValue, .rule .IntValue, .rule .BoolValue] pre s p k) :
    Says E (.rule .Value) pre s v msg n := by
  refine h.same fun p k hk ctx fr hg => ?_
  refine wh_rule (wh_choice (.inl (wh_action (wh_label (wh_choice (.inr ⟨noR.2 (rule_quoted_no hq), .inr ⟨noR.2 (rule_regex_no hr),
    .inl (wh_rule (wh_choice ?_))⟩⟩))))))
  exact hx ctx p k fun fr => hk ctx fr hg

theorem date_lead {x : Str} (h : DateShape a) : ∃ c t, a ++ x = c :: t ∧ Dig c := by
  obtain ⟨p, q, r, hp, hp4, hq, hq2, hr, hr2, rfl⟩ := h
  match p, hp4 with
  | [c1, c2, c3, c4], _ => exact ⟨c1, _, rfl, hp c1 (by simp)⟩

theorem dig_head {P : Char → Prop} {c : Char} {t : Str} (hc : Dig c) (hP : ∀ d, P d → ¬ Dig d) : NoHead P (c :: t) := by
  rw [noHead_cons]
  exact fun h => hP c h hc

theorem word_prefix {u post w : Str} (h : Word u post) (hw : ∀ c ∈ w, ¬ IsWs c) (hp : w <+: u ++ post) : w <+: u := by
  by_cases hl : w.length ≤ u.length
  · exact List.prefix_of_prefix_length_le hp (List.prefix_append _ _) hl
  · obtain ⟨t, ht⟩ := List.prefix_of_prefix_length_le (List.prefix_append u post) hp (by omega)
    subst ht
    rw [List.prefix_append_right_inj] at hp
    cases t with
    | nil => simp at hl
    | cons c t =>
      obtain ⟨y, rfl⟩ := hp
      exact absurd (h.2.2 c _ rfl) (hw c (by simp))

theorem float_no_point {m r : Str} (hm : Minus m) (hp : a ≠ []) (hp2 : AllDigits a) (hb : NoHead Dig r) :
    RuleNo E ctx .FloatValue pre (m ++ (a ++ '.' :: r)) := by
  unfold RuleNo
  simp only [grammar, no_action, no_seq, NoS, no_digits]
  obtain ⟨v, h1⟩ := minus_mk (E := E) (ctx := ctx) (pre := pre) (a := a ++ '.' :: r) hm
    (digits_noHead hp2 hp fun c hc h => dig_ne hc (by decide) h) (w := "\"-\"".toList) []
  obtain ⟨v2, h2⟩ := Can.digits (E := E) (ctx := ctx) (pre := pre ++ m) (b := '.' :: r) hp hp2 (by rw [noHead_cons]; decide) []
  exact .inr ⟨_, _, _, _, h1, .inr ⟨_, _, _, _, h2, .inr ⟨_, _, _, _, ok_lit1.2 ⟨rfl, rfl, rfl, rfl⟩, .inl hb⟩⟩⟩

theorem number_no (h1 : NoHead Dig s) (h2 : ∀ t, s = '-' :: t → NoHead Dig t) :
    RuleNo E ctx .FloatValue pre s ∧ RuleNo E ctx .IntValue pre s := by
  by_cases h : ∃ t, s = '-' :: t
  · obtain ⟨t, rfl⟩ := h
    have h2 := h2 t rfl
    unfold RuleNo
    simp only [grammar, no_action, no_seq, NoS, no_digits]
    have hm : Ok E ctx (.opt (.lit ['-'] false "\"-\"".toList)) [] pre ('-' :: t) (.bytes ['-']) ['-'] t [] :=
      ok_opt.2 ⟨rfl, .inl ⟨_, ok_lit1.2 ⟨rfl, rfl, rfl, rfl⟩⟩⟩
    exact ⟨.inr ⟨_, _, _, _, hm, .inl h2⟩, .inr ⟨_, _, _, _, hm, .inl h2⟩⟩
  · have hm : NoHead (· = '-') s := by
      rintro c t rfl rfl
      exact h ⟨t, rfl⟩
    exact ⟨float_no h1 hm, int_no h1 hm⟩

theorem ip_no (h : NoHead Dig s) : RuleNo E ctx .IPValue pre s := by
  unfold RuleNo
  simp only [grammar, no_action, no_seq, NoS]
  exact .inl (noR.2 (octet_no h))

theorem time_no (h : NoHead Dig s) : RuleNo E ctx .Timestamp pre s :=
  timestamp_no (by
    have := fullDate_no (E := E) (ctx := ctx) (pre := pre) (ds := []) (t := s) (by simp [AllDigits]) h (by simp)
    exact this)

/-- A word that begins with none of the values. -/
theorem says_word {c : Char} {t post : Str} {msg : Str} {er : ErrKind} (hw : Word (c :: t) post) (h1 : c ≠ '"') (h2 : c ≠ '/')
    (h3 : ¬ Dig c) (h4 : c = '-' → NoDigit (t ++ post)) (h5 : ¬ "true".toList <+: c :: t) (h6 : ¬ "false".toList <+: c :: t)
    (hk : (if c = ')' then ErrKind.closingParen else .unknownValue (c :: t)) = er) (hm : er.text E = msg) :
    Says E (.rule .Value) pre (c :: t ++ post) [] msg 1 := by
  refine ⟨_, ⟨er, none⟩, rfl, hm, rfl, fun ctx fr hg => ?_⟩
  rw [List.append_nil]
  have hdig : NoHead Dig (c :: t ++ post) := by rw [List.cons_append, noHead_cons]; exact h3
  have hnum := number_no (E := E) (ctx := ctx) (pre := pre) hdig (by
    intro u hu
    rw [List.cons_append, List.cons.injEq] at hu
    obtain ⟨hc, rfl⟩ := hu
    exact noDig_of (h4 hc))
  have hbool : RuleNo E ctx .BoolValue pre (c :: t ++ post) := by
    unfold RuleNo
    simp only [grammar, no_action, no_choice, NoC, no_lit]
    refine ⟨?_, ?_, trivial⟩
    · intro u hu
      exact h6 (word_prefix hw (by decide) ⟨u, hu.symm⟩)
    · intro u hu
      exact h5 (word_prefix hw (by decide) ⟨u, hu.symm⟩)
  refine wh_rule (wh_choice (.inr ⟨?_, .inl ?_⟩))
  · simp only [no_action, no_label, no_choice, NoC]
    refine ⟨noR.2 (rule_quoted_no (by rw [List.cons_append, noHead_cons]; exact h1)),
      noR.2 (rule_regex_no (by rw [List.cons_append, noHead_cons]; exact h2)), noR.2 ?_, trivial⟩
    unfold RuleNo
    simp only [grammar, no_choice, NoC, noR]
    exact ⟨time_no hdig, ip_no hdig, hnum.1, hnum.2, hbool, trivial⟩
  · refine wh_act (a := c :: t) (b := post) (v' := .nil) (fr' := []) (ok_plus.2 ⟨rfl, _, rfl, reps_cls.2 ⟨rfl, rfl, ?_, ?_⟩, by simp⟩) ?_
    · intro d hd
      exact cls_notWs.2 (hw.2.1 d hd)
    · intro d u hu hd
      exact cls_notWs.1 hd (hw.2.2 d u hu)
    · subst hk
      simp only [runAct]
      split <;> rfl

theorem says_value {v msg : Str} {n : Nat} (h : WrongValue E s v msg n) : Says E (.rule .Value) pre s v msg n := by
  cases h with
  | string h =>
    exact (says_string h).same fun p k hk ctx fr hg =>
      wh_rule (wh_choice (.inl (wh_action (wh_label (wh_choice (.inl (hk ctx _ hg)))))))
  | pattern h1 h2 h3 h4 h5 =>
    refine (says_pattern h1 h2 h3 h4 h5).same fun p k hk ctx fr hg =>
      wh_rule (wh_choice (.inl (wh_action (wh_label (wh_choice (.inr ⟨noR.2 (rule_quoted_no ?_), .inl (hk ctx _ hg)⟩))))))
    subst h2
    simp
  | unclosedPattern h1 h2 =>
    refine (says_unclosed h1 h2).same fun p k hk ctx fr hg =>
      wh_rule (wh_choice (.inl (wh_action (wh_label (wh_choice (.inr ⟨noR.2 (rule_quoted_no ?_), .inl (hk ctx _ hg)⟩))))))
    simp
  | @stamp u post h1 h2 =>
    have h1' := h1
    obtain ⟨d, c, hh, m, sec, f, z, hd, hc, -, -, -, -, -, -, hf, hz, rfl⟩ := h1'
    have hf : ∃ x t, (d ++ c :: (hh ++ ':' :: (m ++ ':' :: (sec ++ (f ++ z))))) ++ post = x :: t ∧ Dig x := by
      rw [List.append_assoc]; exact date_lead hd
    obtain ⟨x, t, e, hx⟩ := hf
    refine says_bare ?_ ?_ (says_stamp h1 h2) fun ctx p k hk => .inl (hk _)
    · rw [e]; exact dig_head hx (by rintro _ rfl; decide)
    · rw [e]; exact dig_head hx (by rintro _ rfl; decide)
  | @day u post h1 h2 h3 =>
    obtain ⟨x, t, e, hx⟩ := date_lead (x := post) h1
    refine says_bare ?_ ?_ (says_day h1 h2 h3) fun ctx p k hk => .inl (hk _)
    · rw [e]; exact dig_head hx (by rintro _ rfl; decide)
    · rw [e]; exact dig_head hx (by rintro _ rfl; decide)
  | @network u post x h1 h2 h3 =>
    have h1' := h1.1
    obtain ⟨a, b, c, d, sfx, ha, hb, hc, hd, hs, rfl⟩ := h1'
    have hne : a ≠ [] := by rintro rfl; exact absurd ha.1 (by simp)
    have e : ∀ y : Str, a ++ '.' :: (b ++ '.' :: (c ++ '.' :: (d ++ sfx))) ++ y = a ++ '.' :: ((b ++ '.' :: (c ++ '.' :: (d ++ sfx))) ++ y) := by
      simp
    refine says_bare ?_ ?_ (says_network h1 h2 h3) fun ctx p k hk => .inr ⟨noR.2 ?_, .inl (hk _)⟩
    · rw [e]; exact digits_noHead ha.2.2 hne fun c hc h => dig_ne hc (by decide) h
    · rw [e]; exact digits_noHead ha.2.2 hne fun c hc h => dig_ne hc (by decide) h
    · rw [e]
      refine timestamp_no (fullDate_no ha.2.2 ?_ fun _ => ?_) <;> (rw [noHead_cons]; decide)
  | @float m a b u post q hm hd hb hd2 hu hp hq hr =>
    subst hu
    have hl := float_long hm hd hd2 hb hq hr
    have ha : a ≠ [] := by rintro rfl; simp at hl
    have e : m ++ (a ++ '.' :: b) ++ post = m ++ (a ++ ('.' :: b ++ post)) := by simp
    refine says_bare ?_ ?_ (says_float hm ha hd hb hd2 rfl hp hq hr) fun ctx p k hk => .inr ⟨noR.2 ?_, .inr ⟨noR.2 ?_, .inl (hk _)⟩⟩
    · rw [e]; exact number_head hm hd ha fun c hc h => by subst h; revert hc; decide
    · rw [e]; exact number_head hm hd ha fun c hc h => by subst h; revert hc; decide
    · rw [e]; exact (long_no hm hd hl).1
    · rw [e]; exact (long_no hm hd hl).2
  | @integer m a u post n hm hd hu hp hf hq hr =>
    subst hu
    have hl := int_long hm hq hr
    have ha : a ≠ [] := by rintro rfl; simp at hl
    have e : m ++ a ++ post = m ++ (a ++ post) := by simp
    refine says_bare ?_ ?_ (says_int hm ha hd rfl hp hq hr) fun ctx p k hk =>
      .inr ⟨noR.2 ?_, .inr ⟨noR.2 ?_, .inr ⟨noR.2 ?_, .inl (hk _)⟩⟩⟩
    · rw [e]; exact number_head hm hd ha fun c hc h => by subst h; revert hc; decide
    · rw [e]; exact number_head hm hd ha fun c hc h => by subst h; revert hc; decide
    · rw [e]; exact (long_no hm hd hl).1
    · rw [e]; exact (long_no hm hd hl).2
    · rw [e]
      by_cases hpt : ∃ r, post = '.' :: r
      · obtain ⟨r, rfl⟩ := hpt
        exact float_no_point hm ha hd fun c t hc hdc => hf c t (by rw [hc]) hdc
      · exact float_no_int hm ha hd (noDig_of hp) (by rintro c t rfl rfl; exact hpt ⟨t, rfl⟩)
  | @closing t post hw =>
    exact says_word (er := .closingParen) hw (by decide) (by decide) (by decide) (by simp) (by simp) (by simp) rfl rfl
  | @unknown c t post hw h1 h2 h3 h4 h5 h6 h7 =>
    refine says_word (er := .unknownValue (c :: t)) hw h1 h2 h4 ?_ h6 h7 (if_neg h3) rfl
    intro hc d u hu hd
    cases t with
    | nil =>
      have := hw.2.2 d u hu
      have hd : Dig d := hd
      rcases this with rfl | rfl | rfl | rfl <;> exact absurd hd (by decide)
    | cons x t =>
      injection hu with h8 h9
      subst h8
      exact h5 hc _ _ rfl hd

theorem wrongString_head {v msg : Str} {n : Nat} (h : WrongString E s v msg n) : ∃ t, s = '"' :: t := by
  cases h with
  | half _ hu _ => subst hu; exact ⟨_, rfl⟩
  | unclosed => exact ⟨_, rfl⟩

theorem digit_notWs {c : Char} (h : Dig c) : ¬ IsWs c := by
  rintro (rfl | rfl | rfl | rfl) <;> exact absurd h (by decide)

theorem wrongValue_head {v msg : Str} {n : Nat} (h : WrongValue E s v msg n) : NoHead IsWs s := by
  cases h with
  | string h =>
    obtain ⟨t, rfl⟩ := wrongString_head h
    rw [noHead_cons]; decide
  | pattern _ hu => subst hu; rw [List.cons_append, noHead_cons]; decide
  | unclosedPattern => rw [noHead_cons]; decide
  | @stamp u post h1 _ =>
    obtain ⟨d, c, hh, m, sec, f, z, hd, hc, -, -, -, -, -, -, hf, hz, rfl⟩ := h1
    rw [List.append_assoc]
    obtain ⟨x, t, e, hx⟩ := date_lead (x := c :: (hh ++ ':' :: (m ++ ':' :: (sec ++ (f ++ z)))) ++ post) hd
    rw [e, noHead_cons]; exact digit_notWs hx
  | @day u post h1 _ _ =>
    obtain ⟨x, t, e, hx⟩ := date_lead (x := post) h1
    rw [e, noHead_cons]; exact digit_notWs hx
  | network h1 _ _ =>
    obtain ⟨a, b, c, d, sfx, ha, -, -, -, -, rfl⟩ := h1.1
    rw [List.append_assoc]
    exact digits_noHead ha.2.2 (by rintro rfl; exact absurd ha.1 (by simp)) fun _ => digit_notWs
  | @float m a b u post q hm hd hb hd2 hu hp hq hr =>
    subst hu
    have hl := float_long hm hd hd2 hb hq hr
    have ha : a ≠ [] := by rintro rfl; simp at hl
    rw [List.append_assoc, List.append_assoc]
    refine number_head hm hd ha ?_
    rintro c (hc | rfl)
    · exact digit_notWs hc
    · decide
  | @integer m a u post n hm hd hu hp hf hq hr =>
    subst hu
    have hl := int_long hm hq hr
    have ha : a ≠ [] := by rintro rfl; simp at hl
    rw [List.append_assoc]
    refine number_head hm hd ha ?_
    rintro c (hc | rfl)
    · exact digit_notWs hc
    · decide
  | closing => rw [List.cons_append, noHead_cons]; decide
  | unknown hw => rw [List.cons_append, noHead_cons]; exact hw.2.1 _ (by simp)

/-! ### Value lists -/

theorem grammar_valueList : grammar .ValueList = .choice [.action .onValueList2
      (.seq [.lit ['('] false "\"(\"".toList, .rule .ws, .label .first (.rule .Value),
        .label .rest (.star listElem), .rule .ws, .lit [')'] false "\")\"".toList]),
    .action .onValueList17 (.label .value (.rule .Value))] := rfl

/-- The items of a list that goes on are read. -/
theorem items_row {xs : List Val} (h : Items E pre a xs) {w t' : Str} (hw : Ws w) (hb : b = w ++ ',' :: t') :
    ∃ t x a', a = t ++ a' ∧ Lit E pre t x ∧ FLit (a' ++ b) ∧ Row E ctx listElem (pre ++ t) (a' ++ b) a' b := by
  induction h with
  | @one pre t x hx =>
    refine ⟨t, x, [], by simp, hx, ?_, .nil⟩
    rw [hb]; exact fLit_ws hw (.inr rfl)
  | @cons pre t x w1 w2 s xs hx h1 h2 _ ih =>
    obtain ⟨t2, x2, a2, rfl, hx2, hf, hr⟩ := ih
    refine ⟨t, x, w1 ++ ',' :: (w2 ++ (t2 ++ a2)), by simp, hx, ?_, ?_⟩
    · rw [List.append_assoc, List.cons_append]; exact fLit_ws h1 (.inr rfl)
    · have e : w1 ++ ',' :: (w2 ++ (t2 ++ a2)) = (w1 ++ ',' :: (w2 ++ t2)) ++ a2 := by simp
      rw [e, List.append_assoc]
      refine .cons (a1 := w1 ++ ',' :: (w2 ++ t2)) (b1 := a2 ++ b) (g := []) (ok_listElem.2 ⟨rfl, w1, w2, t2, .list (charVals w1), .list (charVals w2), .val x2, rfl, by simp, rfl,
        ?_, ?_, ?_⟩) ?_
      · have := ws_ok (E := E) (ctx := ctx) (pre := pre ++ t) h1 (b := ',' :: (w2 ++ (t2 ++ (a2 ++ b)))) (by rw [noHead_cons]; decide)
        simpa using this
      · exact ws_ok h2 (lit_noHead hx2 (by rintro c hc hw; revert hc; rcases hw with rfl | rfl | rfl | rfl <;> decide))
      · have := lit_value (ctx := ctx) (b := a2 ++ b) hx2 hf
        simpa using this
      · simpa using hr

/-- The first alternative of ValueList. -/
abbrev listAlt : PExpr := .action .onValueList2
  (.seq [.lit ['('] false "\"(\"".toList, .rule .ws, .label .first (.rule .Value),
    .label .rest (.star listElem), .rule .ws, .lit [')'] false "\")\"".toList])

theorem says_list {v msg : Str} {n : Nat} (h : WrongList E pre s v msg n) : Says E listAlt pre s v msg n := by
  cases h with
  | @first w s v _ _ hw h =>
    have e : ∀ x : Str, '(' :: (w ++ x) = ('(' :: w) ++ x := by simp
    rw [e s, e v]
    refine (says_value h).mono fun p k hk ctx fr hg => ?_
    refine wh_action (wh_seq (.inr ⟨_, ['('], w ++ s, _, ok_lit1.2 ⟨rfl, rfl, rfl, rfl⟩, .inr ⟨_, w, s, _,
      okR.2 ⟨rfl, ws_ok hw (wrongValue_head h)⟩, .inl (wh_label ?_)⟩⟩))
    have := hk ctx [] hg
    simpa using this
  | @later w t xs w1 w2 s v _ _ hw hi h1 h2 h =>
    have e : ∀ x : Str, '(' :: (w ++ (t ++ (w1 ++ ',' :: (w2 ++ x)))) = ('(' :: (w ++ (t ++ (w1 ++ ',' :: w2)))) ++ x := by simp
    rw [e s, e v]
    refine (says_value h).mono fun p k hk ctx fr hg => ?_
    obtain ⟨t, x, a', rfl, hx, hf, hr⟩ := items_row (ctx := ctx) hi h1 (b := w1 ++ ',' :: (w2 ++ s)) rfl
    rw [← e s, show w ++ (t ++ a' ++ (w1 ++ ',' :: (w2 ++ s))) = w ++ (t ++ (a' ++ (w1 ++ ',' :: (w2 ++ s)))) by simp]
    refine wh_action (wh_seq (.inr ⟨_, ['('], _, _, ok_lit1.2 ⟨rfl, rfl, rfl, rfl⟩, .inr ⟨_, w, _, _,
      okR.2 ⟨rfl, ws_ok hw (lit_noHead hx (by rintro c hc hw; revert hc; rcases hw with rfl | rfl | rfl | rfl <;> decide))⟩,
      
      .inr ⟨.val x, t, a' ++ (w1 ++ ',' :: (w2 ++ s)), _, ok_label.2 ⟨rfl, [], okR.2 ⟨rfl, ?_⟩⟩, .inl (wh_label (wh_star (a := a') (b := w1 ++ ',' :: (w2 ++ s)) ?_ ?_))⟩⟩⟩))
    · have := lit_value (ctx := ctx) (b := a' ++ (w1 ++ ',' :: (w2 ++ s))) hx hf
      simpa using this
    · simpa using hr
    · unfold listElem
      refine wh_seq (.inr ⟨_, w1, _, _, okR.2 ⟨rfl, ws_ok h1 (by rw [noHead_cons]; decide)⟩, .inr ⟨_, [','], w2 ++ s, _, ok_lit1.2 ⟨rfl, rfl, rfl, rfl⟩,
        .inr ⟨_, w2, s, _, okR.2 ⟨rfl, ws_ok h2 (wrongValue_head h)⟩, .inl ?_⟩⟩⟩)
      have := hk ctx [] hg
      simpa using this
  | @single w1 t x w2 post hw1 hx hw2 =>
    refine ⟨_, ⟨.singleParen, none⟩, rfl, rfl, rfl, fun ctx fr hg => ?_⟩
    rw [List.append_nil]
    refine wh_act (a := '(' :: (w1 ++ (t ++ (w2 ++ [')'])))) (b := post) (v' := .nil)
      (v := .list [.bytes ['('], .list (charVals w1), .val x, .list [], .list (charVals w2), .bytes [')']]) (fr' := (.rest, .list []) :: (.first, .val x) :: fr) ?_ ?_
    · simp only [ok_seq, OkS, ok_label, okR, ok_lit1, ok_star]
      refine ⟨_, ['('], w1 ++ (t ++ (w2 ++ ')' :: post)), _, ⟨rfl, rfl, rfl, rfl⟩, w1 ++ (t ++ (w2 ++ [')'])), rfl,
        .list (charVals w1), w1, t ++ (w2 ++ ')' :: post), _, ⟨rfl, ?_⟩, t ++ (w2 ++ [')']), rfl, .val x, t, w2 ++ ')' :: post, _, ⟨rfl, [], rfl, ?_⟩,
        w2 ++ [')'], rfl, .list [], [], w2 ++ ')' :: post, _, ⟨rfl, [], rfl, [], rfl, ?_⟩, w2 ++ [')'], rfl, .list (charVals w2), w2, ')' :: post, _,
        ⟨rfl, ws_ok hw2 (by rw [noHead_cons]; decide)⟩, [')'], rfl, _, [')'], post, _, ⟨rfl, rfl, rfl, rfl⟩, [], rfl, rfl, rfl, rfl, rfl⟩
      · exact ws_ok hw1 (lit_noHead hx (by rintro c hc hw; revert hc; rcases hw with rfl | rfl | rfl | rfl <;> decide))
      · have := lit_value (ctx := ctx) (b := w2 ++ ')' :: post) hx (fLit_ws hw2 (.inl rfl))
        simpa using this
      · refine .nil ?_
        unfold listElem
        simp only [no_seq, NoS, no_lit1]
        exact .inr ⟨.list (charVals w2), w2, ')' :: post, _, okR.2 ⟨rfl, ws_ok hw2 (by rw [noHead_cons]; decide)⟩, .inl (by rw [noHead_cons]; decide)⟩
    · rfl

theorem flaw_list (hg : Sane ctx) (h : Er E ctx listAlt [] pre s p k) : Flawed E (WrongList E pre) pre s p k := by
  replace h := er_action h
  rcases h with h | ⟨_, u, post, g, _, h, hr, hp⟩
  · replace h := er_seq h
    rcases h with h | ⟨_, _, _, _, h0, h | ⟨_, w, _, _, h1, h | ⟨_, t, _, _, h2, h | ⟨_, r, _, _, -, h | ⟨_, _, _, _, -,
      h | ⟨_, _, _, _, -, h⟩⟩⟩⟩⟩⟩
    · exact (er_lit h).elim
    · exact (silent_er silent_ws h).elim
    · obtain ⟨rfl, rfl, rfl, -⟩ := ok_lit1.1 h0
      obtain ⟨-, h1⟩ := okR.1 h1
      have e1 := h1.split
      subst e1
      have := flaw_value hg (er_label h)
      rw [List.append_assoc] at this
      exact this.after fun v msg n hw => .first (rule_ws.1 h1).2.2.1 hw
    · obtain ⟨rfl, rfl, rfl, -⟩ := ok_lit1.1 h0
      obtain ⟨-, h1⟩ := okR.1 h1
      have e1 := h1.split
      subst e1
      obtain ⟨-, _, h2⟩ := ok_label.1 h2
      obtain ⟨-, h2⟩ := okR.1 h2
      have e2 := h2.split
      subst e2
      obtain ⟨x, -, hx⟩ := value_lit h2
      replace h := er_star (er_label h)
      obtain ⟨r, y, hrow, h⟩ := h
      have e3 := hrow.split
      subst e3
      obtain ⟨xs, hit⟩ := row_items hrow rfl hx
      replace h := er_seq h
      rcases h with h | ⟨_, w1, _, _, k1, h | ⟨_, _, _, _, k2, h | ⟨_, w2, _, _, k3, h | ⟨_, _, _, _, -, h⟩⟩⟩⟩
      · exact (silent_er silent_ws h).elim
      · exact (er_lit h).elim
      · exact (silent_er silent_ws h).elim
      · obtain ⟨-, k1⟩ := okR.1 k1
        obtain ⟨-, rfl, rfl, -⟩ := ok_lit1.1 k2
        obtain ⟨-, k3⟩ := okR.1 k3
        have f1 := k1.split
        subst f1
        have f3 := k3.split
        subst f3
        have hf := flaw_value hg h
        have e : pre ++ ['('] ++ w ++ t ++ r ++ w1 ++ [','] ++ w2 = pre ++ ('(' :: (w ++ (t ++ r ++ (w1 ++ ',' :: w2)))) := by simp
        rw [e] at hf
        have := hf.after (W' := WrongList E pre) fun v msg n hw => ?_
        · simpa using this
        · have := WrongList.later (q := pre) (rule_ws.1 h1).2.2.1 (t := t ++ r) (xs := x :: xs) (by simpa using hit) (rule_ws.1 k1).2.2.1
            (rule_ws.1 k3).2.2.1 hw
          simpa using this
      · exact h.elim
    · exact (silent_er silent_ws h).elim
    · exact (er_lit h).elim
    · exact h.elim
  · have e := h.1
    subst e hp
    simp only [ok_seq, OkS, ok_label, okR, ok_lit1, ok_star] at h
    obtain ⟨_, _, _, _, ⟨rfl, rfl, -, rfl⟩, _, rfl, _, w1, _, _, ⟨rfl, h1⟩, _, rfl, v1, t, _, _,
      ⟨rfl, _, rfl, h2⟩, _, rfl, _, r, _, _, ⟨rfl, _, rfl, vs, rfl, h3⟩, _, rfl, _, w2, _, _, ⟨rfl, h4⟩, _, rfl, _, _, _, _,
      ⟨rfl, rfl, -, rfl⟩, _, rfl, rfl, rfl, rfl, rfl⟩ := h
    obtain ⟨x, rfl, hx⟩ := value_lit h2
    obtain ⟨xs, g1, g2, g3⟩ := items_of h3 (p := pre ++ ['('] ++ w1) rfl hx
    rw [runAct_list g1] at hr
    split at hr
    · rename_i hl
      simp only [Except.ok.injEq, Prod.mk.injEq, Option.some.injEq] at hr
      obtain ⟨-, rfl⟩ := hr
      have hvs : vs = [] := List.length_eq_zero_iff.1 hl
      subst hvs
      have hr0 : r = [] := by
        cases h3 with
        | nil _ => rfl
      subst hr0
      rename_i post
      have := WrongList.single (E := E) (q := pre) (w1 := w1) (t := t) (x := x) (w2 := w2) (post := post) (rule_ws.1 h1).2.2.1
        (by simpa using hx) (rule_ws.1 h4).2.2.1
      refine .here ?_
      have e : ['('] ++ (w1 ++ (t ++ ([] ++ (w2 ++ ([')'] ++ []))))) ++ post = '(' :: (w1 ++ (t ++ (w2 ++ ')' :: post))) := by simp
      rw [e]
      exact this
    · simp at hr

/-- Said and not said at once. -/
theorem says_no {e : PExpr} {v msg : Str} {n : Nat} (hs : Says E e pre s v msg n) (hg : Sane ctx) (h : No E ctx e fr pre s) : False := by
  obtain ⟨r, k, -, -, -, hw⟩ := hs
  obtain ⟨l, c, hb, hl⟩ := h
  have := hw ctx fr hg l _ hb
  rw [hl] at this
  cases this

theorem listAlt_values (h : Ok E ctx listAlt [] pre s v a b fr') : ∃ t xs, a = '(' :: t ∧ Values E pre a xs := by
  have h' : RuleOk E ctx .ValueList pre s v a b := by
    unfold RuleOk
    rw [grammar_valueList]
    exact ⟨[], ok_choice.2 ⟨rfl, .inl ⟨_, h⟩⟩⟩
  obtain ⟨xs, -, hx⟩ := valueList_values h'
  obtain ⟨_, h, -⟩ := ok_action.1 h
  simp only [ok_seq, OkS, ok_lit1] at h
  obtain ⟨_, _, _, _, ⟨-, rfl, -⟩, t, e, -⟩ := h
  exact ⟨t, xs, by rw [e]; rfl, hx⟩

theorem values_listAlt {t : Str} {xs : List Val} (h : Values E pre ('(' :: t) xs) (hn : No E ctx listAlt [] pre ('(' :: t ++ b)) : False := by
  generalize hu : '(' :: t = u at h hn
  cases h with
  | one hx =>
    subst hu
    exact lit_noHead (b := []) (p := (· = '(')) hx (by rintro c hc rfl; revert hc; decide) _ _ rfl rfl
  | @list w1 w2 s _ h1 h2 h3 h4 =>
    obtain ⟨t, x, xs', a', us, rfl, rfl, hx, hf, hr, hm, hl⟩ := items_mk (ctx := ctx) (b := w2 ++ ')' :: b) h2 h4 rfl
    refine Ok.clash (v := .vals (x :: xs')) (a := '(' :: (w1 ++ (t ++ a' ++ (w2 ++ [')'])))) (b := b) (fr' := [(.rest, .list us), (.first, .val x)]) ?_ hn
    simp only [ok_action, ok_seq, OkS, ok_label, okR, ok_lit1, ok_star]
    refine ⟨_, ⟨_, ['('], w1 ++ (t ++ (a' ++ (w2 ++ ')' :: b))), _, ⟨rfl, rfl, ?_, rfl⟩,
      w1 ++ (t ++ (a' ++ (w2 ++ [')']))), ?_, .list (charVals w1), w1, t ++ (a' ++ (w2 ++ ')' :: b)), _, ⟨rfl, ?_⟩, t ++ (a' ++ (w2 ++ [')'])), rfl,
      .val x, t, a' ++ (w2 ++ ')' :: b), _, ⟨rfl, [], rfl, ?_⟩, a' ++ (w2 ++ [')']), rfl, _, a', w2 ++ ')' :: b, _,
      ⟨rfl, [], rfl, us, rfl, ?_⟩, w2 ++ [')'], rfl, .list (charVals w2), w2, ')' :: b, _, ⟨rfl, ?_⟩, [')'], rfl, _, [')'], b, _,
      ⟨rfl, rfl, rfl, rfl⟩, [], rfl, rfl, rfl, rfl, rfl⟩, ?_⟩
    · simp
    · simp
    · exact ws_ok h1 (lit_notWs hx)
    · have := lit_value (ctx := ctx) hx hf
      simpa using this
    · simpa using hr
    · exact ws_ok h4 (by rw [noHead_cons]; decide)
    · rw [runAct_list hm, if_neg]
      simp at h3; omega

theorem says_values {v msg : Str} {n : Nat} (h : WrongValues E pre s v msg n) : Says E (.rule .ValueList) pre s v msg n := by
  cases h with
  | one h hp =>
    refine (says_value h).same fun p k hk ctx fr hg => wh_rule ?_
    rw [grammar_valueList]
    refine wh_choice (.inr ⟨?_, .inl (wh_action (wh_label (hk ctx _ hg)))⟩)
    simp only [no_action, no_seq, NoS, no_lit1]
    refine .inl ?_
    rintro c t rfl rfl
    exact hp t rfl
  | list h =>
    refine (says_list h).same fun p k hk ctx fr hg => wh_rule ?_
    rw [grammar_valueList]
    exact wh_choice (.inl (hk ctx _ hg))
  | broken h h1 h2 =>
    refine (says_value h).same fun p k hk ctx fr hg => wh_rule ?_
    rw [grammar_valueList]
    refine wh_choice (.inr ⟨no_of hg (by decide) (by decide) ?_ ?_, .inl (wh_action (wh_label (hk ctx _ hg)))⟩)
    · intro p k he
      obtain ⟨v, r, -, -, hw⟩ := flaw_list hg he
      exact h1 _ _ _ hw
    · intro v a b g hk
      have e := hk.1
      obtain ⟨t, xs, rfl, hx⟩ := listAlt_values hk
      exact h2 t b xs (List.cons.inj e).2 hx

theorem flaw_values (hg : Sane ctx) (h : Er E ctx (.rule .ValueList) fr pre s p k) : Flawed E (WrongValues E pre) pre s p k := by
  replace h := er_rule h
  rw [grammar_valueList] at h
  rcases er_choice h with h | ⟨hno, h | ⟨-, h⟩⟩
  · exact (flaw_list hg h).mono fun _ _ _ => .list
  · rcases er_action h with h | ⟨_, u, post, g, _, h, hr, hp⟩
    · refine (flaw_value hg (er_label h)).mono fun v msg n hw => ?_
      by_cases hs : ∃ t, s = '(' :: t
      · obtain ⟨t, rfl⟩ := hs
        refine .broken hw (fun v' msg' n' hl => says_no (says_list hl) hg hno) ?_
        rintro a b xs rfl hx
        exact values_listAlt hx hno
      · exact .one hw fun t ht => hs ⟨t, ht⟩
    · exfalso
      simp only [runAct, bind, Except.bind, pure, Except.pure] at hr
      split at hr
      · cases hr
      · simp at hr
  · exact h.elim

/-! ### Clauses -/

theorem opNoArgs_none (h : ∀ k x, NoArgOp k x → ¬ k <+: s) : RuleNo E ctx .opNoArgs pre s := by
  unfold RuleNo
  simp only [grammar, no_action, no_choice, NoC, no_lit]
  refine ⟨?_, ?_, trivial⟩
  · rintro b rfl; exact h _ _ .exists_ ⟨b, rfl⟩
  · rintro b rfl; exact h _ _ .null ⟨b, rfl⟩

theorem opComp_longest {o : Op} (h : OpText a o) (ha : a ≠ [])
    (hm : ∀ k x, OpText k x → k <+: a ++ b → k.length ≤ a.length) : RuleOk E ctx .opComp pre (a ++ b) (.op o) a b := by
  have h1 : a = ['<'] ∨ a = ['>'] → NoHead (· = '=') b := by
    rintro (rfl | rfl) c t rfl rfl
    · exact absurd (hm _ _ .lte ⟨t, rfl⟩) (by simp)
    · exact absurd (hm _ _ .gte ⟨t, rfl⟩) (by simp)
  have h2 : a = ['>'] → NoHead (· = '<') b := by
    rintro rfl c t rfl rfl
    exact absurd (hm _ _ .bet ⟨t, rfl⟩) (by simp)
  cases h with
  | eq => exact absurd rfl ha
  | lt =>
    exact rule_action rfl (.right (no_lit_head (by simp)) (.right (no_lit_head (by simp)) (.left (.seq
      (.cons (a1 := ['<']) (a2 := []) (.clsC (.inl rfl)) (.one (.optNone (no_lit1.2 (h1 (.inl rfl)))))))))) rfl
  | lte =>
    exact rule_action rfl (.right (no_lit_head (by simp)) (.right (no_lit_head (by simp)) (.left (.seq
      (.cons (a1 := ['<']) (a2 := ['=']) (.clsC (.inl rfl)) (.one (.opt .lit1))))))) rfl
  | gt =>
    exact rule_action rfl (.right (no_bet (h2 rfl)) (.right (no_lit_head (by simp)) (.left (.seq
      (.cons (a1 := ['>']) (a2 := []) (.clsC (.inr rfl)) (.one (.optNone (no_lit1.2 (h1 (.inr rfl)))))))))) rfl
  | gte =>
    exact rule_action rfl (.right (no_bet (by simp)) (.right (no_lit_head (by simp)) (.left (.seq
      (.cons (a1 := ['>']) (a2 := ['=']) (.clsC (.inr rfl)) (.one (.opt .lit1))))))) rfl
  | bet => exact rule_action rfl (.left .lit) rfl
  | sim => exact rule_action rfl (.right (no_lit_head (by simp)) (.left .lit)) rfl

theorem wrongValues_head {v msg : Str} {n : Nat} (h : WrongValues E pre s v msg n) : NoHead IsWs s := by
  cases h with
  | one h _ => exact wrongValue_head h
  | list h => cases h <;> (rw [noHead_cons]; decide)
  | broken => rw [noHead_cons]; decide

/-- The names of a path that goes on are read. -/
theorem path_row {xs : List Str} (h : Path E a xs) : ∃ t x a', a = t ++ a' ∧ Piece E t x ∧ FPiece E (a' ++ '.' :: b) ∧
    ∀ pre, Row E ctx dotElem pre (a' ++ '.' :: b) a' ('.' :: b) := by
  have hdot : ∀ r, FPiece E ('.' :: r) := by
    intro r
    unfold FPiece
    rw [noHead_cons]
    exact not_fieldChar (by decide) (by decide)
  induction h with
  | @one t x hx => exact ⟨t, x, [], by simp, hx, hdot _, fun pre => .nil⟩
  | @cons t x s xs hx _ ih =>
    obtain ⟨t2, x2, a2, rfl, hx2, hf, hr⟩ := ih
    refine ⟨t, x, '.' :: (t2 ++ a2), rfl, hx, hdot _, fun pre => ?_⟩
    refine .cons (a1 := '.' :: t2) (g := []) (b1 := a2 ++ '.' :: b) (ok_dotElem.2 ⟨rfl, t2, .str x2, rfl, by simp, rfl, ?_⟩) (hr _)
    exact fieldPiece_ok hx2 hf

theorem wh_piece (h : ∀ fr, Wh E ctx (.rule .QuotedValue) fr pre s p k) : Wh E ctx (.rule .FieldPiece) fr pre s p k := by
  refine wh_rule ?_
  rw [show grammar .FieldPiece = .choice [.rule .QuotedFieldPiece, .rule .UnquotedFieldPiece, .rule .Star] from rfl]
  refine wh_choice (.inl (wh_rule ?_))
  rw [show grammar .QuotedFieldPiece = .action .onQuotedFieldPiece1 (.label .qv (.rule .QuotedValue)) from rfl]
  exact wh_action (wh_label (h _))

theorem wh_field (h : Wh E ctx (.rule .Field) [] pre s p k) (hs : NoHead (· = '(') s) :
    Wh E ctx (.rule .Comparison) fr pre s p k := by
  refine wh_rule ?_
  rw [grammar_comparison]
  refine wh_choice (.inr ⟨?_, .inl (wh_action (wh_seq (.inl (wh_label h))))⟩)
  simp only [no_action, no_seq, NoS, no_lit1]
  exact .inl hs

theorem grammar_field : grammar .Field = .action .onField1 (.label .pieces (.seq [.rule .FieldPiece, .star dotElem])) := rfl

theorem says_clause {v msg : Str} {n : Nat} (h : WrongClause E pre s v msg n) : Says E (.rule .Comparison) pre s v msg n := by
  cases h with
  | @values p xs w1 w2 o op w3 s v _ _ hp h1 h2 ho h3 hn hx hl hv =>
    have e : ∀ y : Str, p ++ (w1 ++ ':' :: (w2 ++ (o ++ (w3 ++ y)))) = (p ++ (w1 ++ ':' :: (w2 ++ (o ++ w3)))) ++ y := by simp
    rw [e s, e v]
    refine (says_values hv).mono fun p' k hk ctx fr hg => wh_rule ?_
    rw [grammar_comparison, ← e s]
    have hs := wrongValues_head hv
    have hf := colon_follow (E := E) (r := w2 ++ (o ++ (w3 ++ s))) h1
    have ho1 : NoHead IsWs (o ++ (w3 ++ s)) := by
      cases ho with
      | eq => rw [hn rfl]; exact hs
      | _ => exact noHead_cons.2 (by decide)
    have k1 : RuleOk E ctx .Field pre (p ++ (w1 ++ ':' :: (w2 ++ (o ++ (w3 ++ s))))) (.fields (withoutStars xs)) p
      (w1 ++ ':' :: (w2 ++ (o ++ (w3 ++ s)))) := field_ok hp hf.1 hf.2
    have k2 : ∀ {pre}, RuleOk E ctx .ws pre (w1 ++ ':' :: (w2 ++ (o ++ (w3 ++ s)))) (.list (charVals w1)) w1
      (':' :: (w2 ++ (o ++ (w3 ++ s)))) := ws_ok h1 (by rw [noHead_cons]; decide)
    have k3 : ∀ {pre}, RuleOk E ctx .ws pre (w2 ++ (o ++ (w3 ++ s))) (.list (charVals w2)) w2 (o ++ (w3 ++ s)) := ws_ok h2 ho1
    obtain ⟨vo, hop⟩ : ∃ vo, ∀ pre, Ok E ctx (.opt (.rule .opComp)) [] pre (o ++ (w3 ++ s)) vo o (w3 ++ s) [] := by
      by_cases ho0 : o = []
      · subst ho0
        refine ⟨.nil, fun pre => ok_opt.2 ⟨rfl, .inr ⟨noR.2 (opComp_no ?_), rfl, rfl, rfl⟩⟩⟩
        rintro c t he hc
        rw [he] at hl
        rcases hc with rfl | rfl | rfl
        · exact absurd (hl _ _ .lt ⟨t, rfl⟩) (by simp)
        · exact absurd (hl _ _ .gt ⟨t, rfl⟩) (by simp)
        · exact absurd (hl _ _ .sim ⟨t, rfl⟩) (by simp)
      · exact ⟨.op op, fun pre => ok_opt.2 ⟨rfl, .inl ⟨_, okR.2 ⟨rfl, opComp_longest ho ho0 hl⟩⟩⟩⟩
    refine wh_choice (.inr ⟨?_, .inr ⟨?_, .inl (wh_action (wh_seq ?_))⟩⟩)
    · simp only [no_action, no_seq, NoS, no_lit1]
      exact .inl (path_noParen hp)
    · simp only [no_action, no_seq, NoS, no_lit1, no_label, noR, ok_label, okR, ok_lit1]
      exact .inr ⟨_, _, _, _, ⟨rfl, [], rfl, k1⟩, .inr ⟨_, _, _, _, ⟨rfl, k2⟩, .inr ⟨_, _, _, _,
        ⟨rfl, rfl, rfl, rfl⟩, .inr ⟨_, _, _, _, ⟨rfl, k3⟩, .inl (opNoArgs_none hx)⟩⟩⟩⟩
    · refine .inr ⟨_, _, _, _, ok_label.2 ⟨rfl, [], okR.2 ⟨rfl, k1⟩⟩, .inr ⟨_, _, _, _, okR.2 ⟨rfl, k2⟩, .inr ⟨_, [':'],
        w2 ++ (o ++ (w3 ++ s)), _, ok_lit1.2 ⟨rfl, rfl, rfl, rfl⟩, .inr ⟨_, _, _, _, okR.2 ⟨rfl, k3⟩, .inr ⟨vo, o, w3 ++ s, _,
        ok_label.2 ⟨rfl, [], hop _⟩, .inr ⟨_, w3, s, _, okR.2 ⟨rfl, ws_ok h3 hs⟩, .inl (wh_label ?_)⟩⟩⟩⟩⟩⟩
      have := hk ctx [] hg
      simpa using this
  | @name p s v _ _ hp h =>
    refine (says_string h).mono fun p' k hk ctx fr hg => ?_
    obtain ⟨t, rfl⟩ := wrongString_head h
    rcases hp with rfl | ⟨r, xs, hr, rfl⟩
    · refine wh_field (wh_rule ?_) (by rw [List.nil_append, noHead_cons]; decide)
      rw [grammar_field]
      exact wh_action (wh_label (wh_seq (.inl (wh_piece fun fr => by simpa using hk ctx fr hg))))
    · rw [List.append_assoc]
      refine wh_field (wh_rule ?_) (path_noParen hr)
      rw [grammar_field]
      obtain ⟨u, x, a', rfl, hx, hf, hrow⟩ := path_row (ctx := ctx) (b := '"' :: t) hr
      rw [List.append_assoc]
      refine wh_action (wh_label (wh_seq (.inr ⟨.str x, u, a' ++ ('.' :: '"' :: t), _, okR.2 ⟨rfl, fieldPiece_ok hx hf⟩,
        .inl (wh_star (hrow _) ?_)⟩)))
      unfold dotElem
      refine wh_seq (.inr ⟨_, ['.'], '"' :: t, _, ok_lit1.2 ⟨rfl, rfl, rfl, rfl⟩, .inl (wh_piece fun fr => ?_)⟩)
      have := hk ctx fr hg
      simpa using this

end Aql
