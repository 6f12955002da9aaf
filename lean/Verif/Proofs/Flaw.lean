import Verif.Proofs.WrongValue
/-!
The first error recorded while a query is read is that of a wrong clause.
-/

namespace Aql

open Spec

variable {E : Env} {ctx : Ctx} {fr fr' : VFrame} {pre s a b : Str} {v : PV} {p : Loc} {k : RecErr}

/-- The recorded error is about the text `s` after `pre`, which `W` says to be wrong. -/
def Flawed (E : Env) (W : Str → Str → Str → Nat → Prop) (pre s : Str) (p : Loc) (k : RecErr) : Prop :=
  ∃ v r, s = v ++ r ∧ p = locAt (pre ++ v) r ∧ W s v (k.kind.text E) (k.toklen.getD 1)

theorem Flawed.here {W : Str → Str → Str → Nat → Prop} (h : W s [] (k.kind.text E) (k.toklen.getD 1)) :
    Flawed E W pre s (locAt pre s) k := ⟨[], s, rfl, by rw [List.append_nil], h⟩

theorem Flawed.mono {W W' : Str → Str → Str → Nat → Prop} (h : Flawed E W pre s p k)
    (hw : ∀ v msg n, W s v msg n → W' s v msg n) : Flawed E W' pre s p k := by
  obtain ⟨v, r, h1, h2, h3⟩ := h
  exact ⟨v, r, h1, h2, hw _ _ _ h3⟩

theorem Flawed.after {W W' : Str → Str → Str → Nat → Prop} {x : Str} (h : Flawed E W (pre ++ x) s p k)
    (hw : ∀ v msg n, W s v msg n → W' (x ++ s) (x ++ v) msg n) : Flawed E W' pre (x ++ s) p k := by
  obtain ⟨v, r, h1, h2, h3⟩ := h
  exact ⟨x ++ v, r, by rw [h1, List.append_assoc], by rw [h2, List.append_assoc], hw _ _ _ h3⟩

/-! ### Strings and patterns -/

theorem flaw_quoted (h : Er E ctx (.rule .QuotedValue) fr pre s p k) : Flawed E (WrongString E) pre s p k := by
  replace h := er_rule h
  rw [grammar_quoted] at h
  replace h := er_recover h
  have hc : ({ ctx with recov := (.errUntermStr, .rule .ErrUntermStr) :: ctx.recov } : Ctx).recov =
    (.errUntermStr, .rule .ErrUntermStr) :: ctx.recov := rfl
  generalize ({ ctx with recov := (.errUntermStr, .rule .ErrUntermStr) :: ctx.recov } : Ctx) = cx at h hc
  replace h := er_action h
  rcases h with h | ⟨_, _, _, _, _, h, hr, hp⟩
  · rcases er_seq h with h | ⟨_, _, _, _, h0, h2⟩
    · exact (er_lit h).elim
    · obtain ⟨rfl, rfl, rfl, rfl⟩ := ok_lit1.1 h0
      rcases h2 with h2 | ⟨_, t, post, _, h1, h2 | ⟨_, _, _, _, -, h2⟩⟩
      · obtain ⟨_, _, -, h⟩ := er_star h2
        exact (silent_er silent_quotedElem h).elim
      · obtain ⟨rfl, _, rfl, hk⟩ := ok_star.1 h1
        have e := hk.split
        subst e
        rcases er_choice (er_rule h2) with h | ⟨hno, h3 | ⟨-, h⟩⟩
        · exact (er_lit h).elim
        · obtain ⟨rfl, rfl⟩ := er_throw rfl hc h3
          exact ⟨'"' :: t, post, rfl, by simp, .unclosed (reps_spelling hk) (stuck_spelling (reps_end hk) (no_lit1.1 hno))⟩
        · exact h.elim
      · exact h2.elim
  · simp only [ok_seq, OkS, ok_lit1, ok_star, okR, rule_endingQuote hc] at h
    obtain ⟨_, _, _, _, ⟨rfl, rfl, rfl, rfl⟩, _, rfl, _, t, _, _, ⟨rfl, _, rfl, h⟩, _, rfl, _, _, post, _,
      ⟨rfl, rfl, rfl, rfl⟩, _, rfl, rfl, rfl, rfl, rfl⟩ := h
    have e := h.split
    subst e
    obtain ⟨ho, rfl⟩ := tokResult_err hr
    subst hp
    have e : '"' :: (t ++ '"' :: post) = ('"' :: (t ++ ['"'])) ++ post := by simp
    rw [e]
    refine .here (.half (reps_spelling h) rfl ?_)
    intro x hx
    have := unquoteBody_of hx
    have h2 : unquote ('"' :: (t ++ ['"'])) = none := by simpa using ho
    rw [show unquote ('"' :: (t ++ ['"'])) = unquoteBody (t ++ ['"']) from rfl, this] at h2
    cases h2

theorem flaw_regex (h : Er E ctx (.rule .RegexValue) fr pre s p k) : Flawed E (WrongValue E) pre s p k := by
  replace h := er_recover (er_rule h)
  have hc : ({ ctx with recov := (.errUntermRegex, .rule .ErrUntermRegex) :: ctx.recov } : Ctx).recov =
    (.errUntermRegex, .rule .ErrUntermRegex) :: ctx.recov := rfl
  generalize ({ ctx with recov := (.errUntermRegex, .rule .ErrUntermRegex) :: ctx.recov } : Ctx) = cx at h hc
  replace h := er_action h
  rcases h with h | ⟨_, _, _, _, _, h, hr, hp⟩
  · rcases er_seq h with h | ⟨_, _, _, _, h0, h2⟩
    · exact (er_lit h).elim
    · obtain ⟨rfl, rfl, rfl, rfl⟩ := ok_lit1.1 h0
      rcases h2 with h2 | ⟨_, t, post, _, h1, h2 | ⟨_, _, _, _, -, h2⟩⟩
      · obtain ⟨_, _, -, h⟩ := er_star h2
        exact (silent_er silent_regexChar h).elim
      · obtain ⟨rfl, _, rfl, hk⟩ := ok_star.1 h1
        have e := hk.split
        subst e
        rcases er_choice (er_rule h2) with h | ⟨hno, h3 | ⟨-, h⟩⟩
        · exact (er_lit h).elim
        · obtain ⟨rfl, rfl⟩ := er_throw rfl hc h3
          exact ⟨'/' :: t, post, rfl, by simp, .unclosedPattern (regex_body hk) (stuck_regex (reps_end hk) (no_lit1.1 hno))⟩
        · exact h.elim
      · exact h2.elim
  · simp only [ok_seq, OkS, ok_lit1, ok_star, okR, rule_endingSlash hc] at h
    obtain ⟨_, _, _, _, ⟨rfl, rfl, rfl, rfl⟩, _, rfl, _, t, _, _, ⟨rfl, _, rfl, h⟩, _, rfl, _, _, post, _,
      ⟨rfl, rfl, rfl, rfl⟩, _, rfl, rfl, rfl, rfl, rfl⟩ := h
    have e := h.split
    subst e
    obtain ⟨ho, rfl⟩ := tokResult_err hr
    subst hp
    have e : '/' :: (t ++ '/' :: post) = ('/' :: (t ++ ['/'])) ++ post := by simp
    rw [e]
    refine .here (.pattern (regex_body h) rfl (unescaped_iff.2 rfl) (trimmed_iff.2 rfl) ?_)
    unfold newRegexpVal at ho
    split at ho
    · cases ho
    · rename_i hf
      simpa using hf

/-! ### Numbers -/

theorem flaw_int (hf : No E ctx (.rule .FloatValue) [] pre s) (h : Er E ctx (.rule .IntValue) fr pre s p k) :
    Flawed E (WrongValue E) pre s p k := by
  replace h := er_action (er_rule h)
  rcases h with h | ⟨_, u, post, _, _, h, hr, hp⟩
  · exact (silent_er silent_int h).elim
  · have e := h.1
    subst e hp
    simp only [ok_seq, OkS] at h
    obtain ⟨_, m, _, _, h1, _, rfl, _, a, _, _, h2, _, rfl, rfl, rfl, -, -⟩ := h
    obtain ⟨-, -, ha, hd, hb⟩ := plus_digits h2
    have hm := minus_of h1
    rw [List.append_nil] at hr hf ⊢
    simp only [runAct] at hr
    split at hr
    · simp at hr
    · rename_i hn
      simp only [Except.ok.injEq, Prod.mk.injEq, Option.some.injEq] at hr
      obtain ⟨-, rfl⟩ := hr
      obtain ⟨n, hi⟩ := intText_ex hm ha hd
      refine .here (.integer hm hd rfl (noDigit_of hb) ?_ hi ?_)
      · rintro c t rfl hc
        obtain ⟨ds, t', rfl, hds, ht'⟩ : ∃ ds t', t = ds ++ t' ∧ AllDigits ds ∧ NoHead Dig t' := by
          refine ⟨t.takeWhile fun c => decide (Dig c), t.dropWhile fun c => decide (Dig c), by simp, fun c hc => ?_, fun c t' ht hc => ?_⟩
          · exact of_decide_eq_true (List.all_eq_true.1 (List.all_takeWhile (p := fun c => decide (Dig c)) (l := t)) c hc)
          · have h := List.head?_dropWhile_not (fun c => decide (Dig c)) t
            rw [ht] at h
            simp [hc] at h
        have hno := noR.1 hf
        unfold RuleNo at hno
        simp only [grammar, no_action] at hno
        have hc : Can E ctx (.seq [.opt (.lit ['-'] false "\"-\"".toList),
            .plus (.cls [] [('0', '9')] false false "[0-9]".toList), .lit ['.'] false "\".\"".toList,
            .plus (.cls [] [('0', '9')] false false "[0-9]".toList)]) pre (m ++ (a ++ '.' :: (c :: ds))) t' := by
          refine .seq (.cons (minus_mk hm ?_) (.cons (.digits ha hd ?_) (.cons (a1 := ['.']) .lit1
            (.one (.digits (by simp) ?_ ht')))))
          · rw [List.append_assoc]
            exact digits_noHead hd ha fun c hc h => dig_ne hc (by decide) h
          · rw [List.cons_append, noHead_cons]; decide
          · intro x hx
            rcases List.mem_cons.1 hx with rfl | hx
            · exact hc
            · exact hds x hx
        obtain ⟨v, hk⟩ := hc []
        refine hk.clash ?_
        simpa using hno
      · intro hr
        unfold newIntVal at hn
        rw [(parseInt64_iff _ n).2 ⟨hi, hr⟩] at hn
        cases hn

theorem flaw_float (h : Er E ctx (.rule .FloatValue) fr pre s p k) : Flawed E (WrongValue E) pre s p k := by
  replace h := er_action (er_rule h)
  rcases h with h | ⟨_, u, post, _, _, h, hr, hp⟩
  · exact (silent_er silent_float h).elim
  · have e := h.1
    subst e hp
    simp only [ok_seq, OkS] at h
    obtain ⟨_, m, _, _, h1, _, rfl, _, a, _, _, h2, _, rfl, _, _, _, _, h3, _, rfl, _, b, _, _, h4, _, rfl, rfl, rfl,
      -, -⟩ := h
    obtain ⟨-, -, ha, hd, -⟩ := plus_digits h2
    obtain ⟨-, -, hb, hd2, hpost⟩ := plus_digits h4
    obtain ⟨-, rfl, -, -⟩ := ok_lit1.1 h3
    have hm := minus_of h1
    have e : m ++ (a ++ (['.'] ++ (b ++ []))) = m ++ (a ++ '.' :: b) := by simp
    rw [e] at hr ⊢
    obtain ⟨ho, rfl⟩ := tokResult_err hr
    obtain ⟨q, hq⟩ := decText_float hm ha hd hd2
    refine .here (.float hm hd hb hd2 rfl (noDigit_of hpost) hq ?_)
    intro x hx
    unfold newFloatVal parseFloat at ho
    rw [(decimalValue_iff _ q).2 hq] at ho
    simp only [hx] at ho
    cases ho

/-! ### Addresses and times -/

/-- Of the beginnings of a kind there is a longest. -/
theorem longest_of {P : Str → Prop} {u post : Str} (h : P u) : ∃ u' post', u ++ post = u' ++ post' ∧ Longest P u' post' := by
  classical
  let Q : Nat → Prop := fun n => ∃ x y, u ++ post = x ++ y ∧ P x ∧ x.length = n
  have hb : ∀ n, Q n → n ≤ (u ++ post).length := by
    rintro n ⟨x, y, e, -, rfl⟩
    rw [e, List.length_append]; omega
  have h0 : Q u.length := ⟨u, post, rfl, h, rfl⟩
  obtain ⟨x, y, e, hx, hl⟩ := Nat.findGreatest_spec (P := Q) (hb _ h0) h0
  refine ⟨x, y, e, hx, fun x' y' e' hx' => ?_⟩
  rw [hl]
  have hq : Q x'.length := ⟨x', y', e.trans e', hx', rfl⟩
  exact Nat.le_findGreatest (hb _ hq) hq

theorem flaw_ip (hg : Sane ctx) (h : Er E ctx (.rule .IPValue) fr pre s p k) : Flawed E (WrongValue E) pre s p k := by
  replace h := er_action (er_rule h)
  rcases h with h | ⟨_, u, post, _, _, h, hr, hp⟩
  · exact (silent_er silent_ip h).elim
  · have e := h.1
    subst e hp
    have hs := ip_shape h
    obtain ⟨u', post', e, hl⟩ := longest_of (post := post) hs
    obtain ⟨v', hk⟩ := longest_ip (E := E) (pre := pre) hl hg []
    rw [← e] at hk
    obtain ⟨-, rfl, rfl, -⟩ := Ok.det h hk
    obtain ⟨ho, rfl⟩ := tokResult_err hr
    refine .here (.network hl ?_ rfl)
    intro S hS
    unfold newNetVal at ho
    dsimp only at ho
    rcases hS with ⟨x, hx, -⟩ | ⟨t, x, n, ht, hn, rfl, -⟩
    · rw [if_neg hx.noSlash, (parsePrefix_iff _ ⟨x, 32⟩).2 ⟨u, hx, by norm_num, by
        rw [show numeral 32 = ['3', '2'] by decide +kernel]; rfl⟩] at ho
      cases ho
    · rw [if_pos (by simp), (parsePrefix_iff _ ⟨x, n⟩).2 ⟨t, ht, hn, rfl⟩] at ho
      cases ho

theorem flaw_time (h : Er E ctx (.rule .Timestamp) fr pre s p k) : Flawed E (WrongValue E) pre s p k := by
  replace h := er_action (er_rule h)
  rcases h with h | ⟨_, u, post, _, _, h, hr, hp⟩
  · exact (silent_er silent_dateTime h).elim
  · have e := h.1
    subst e hp
    obtain ⟨ho, rfl⟩ := tokResult_err hr
    unfold newTimeVal at ho
    simp only [ok_choice, OkC, okR] at h
    obtain ⟨-, ⟨_, -, h⟩ | ⟨hno, ⟨_, -, h⟩ | h⟩⟩ := h
    · refine .here (.stamp (dateTime_of h) ?_)
      intro i hi
      rw [if_neg (stamp_len hi), (parseRFC3339_iff u i).2 hi] at ho
      cases ho
    · refine .here (.day (fullDate_of h) ?_ ?_)
      · intro x y e hx
        obtain ⟨v, hk⟩ := stampShape_mk (E := E) (ctx := ctx) (pre := pre) (b := y) hx []
        rw [← e] at hk
        exact hk.clash hno
      · intro i hi
        rw [if_pos (day_len hi), (parseDay_iff u i).2 hi] at ho
        cases ho
    · exact h.2.elim

/-! ### Values -/

theorem flaw_bare (hg : Sane ctx) (h : Er E ctx (.rule .BareValue) fr pre s p k) : Flawed E (WrongValue E) pre s p k := by
  replace h := er_choice (er_rule h)
  rcases h with h | ⟨-, h | ⟨-, h | ⟨hf, h | ⟨-, h | ⟨-, h⟩⟩⟩⟩⟩
  · exact flaw_time h
  · exact flaw_ip hg h
  · exact flaw_float h
  · exact flaw_int hf h
  · exact (er_bool h).elim
  · exact h.elim

theorem flaw_value (hg : Sane ctx) (h : Er E ctx (.rule .Value) fr pre s p k) : Flawed E (WrongValue E) pre s p k := by
  replace h := er_choice (er_rule h)
  rcases h with h | ⟨hno, h | ⟨-, h⟩⟩
  · replace h := er_action h
    rcases h with h | ⟨_, u, post, g, _, h, hr, hp⟩
    · replace h := er_choice (er_label h)
      rcases h with h | ⟨-, h | ⟨-, h | ⟨-, h⟩⟩⟩
      · exact (flaw_quoted h).mono fun _ _ _ => .string
      · exact flaw_regex h
      · exact flaw_bare hg h
      · exact h.elim
    · exfalso
      simp only [runAct, bind, Except.bind, pure, Except.pure] at hr
      split at hr
      · cases hr
      · simp at hr
  · replace h := er_action h
    rcases h with h | ⟨_, u, post, _, _, h, hr, hp⟩
    · exact (silent_er (E := E) (by silent) h).elim
    · have e := h.1
      subst e hp
      rw [ok_plus] at h
      obtain ⟨-, vs, -, h, hne⟩ := h
      rw [reps_cls] at h
      obtain ⟨-, rfl, h1, h2⟩ := h
      have hu : u ≠ [] := by simpa using hne
      have hw : Word u post := by
        refine ⟨hu, fun c hc => cls_notWs.1 (h1 c hc), fun c t ht => ?_⟩
        by_contra hc
        exact h2 c t ht (cls_notWs.2 hc)
      obtain ⟨c, t, rfl⟩ := List.exists_cons_of_ne_nil hu
      simp only [runAct] at hr
      split at hr
      · rename_i hc
        subst hc
        simp only [Except.ok.injEq, Prod.mk.injEq, Option.some.injEq] at hr
        obtain ⟨-, rfl⟩ := hr
        exact .here (.closing hw)
      · rename_i hc
        simp only [Except.ok.injEq, Prod.mk.injEq, Option.some.injEq] at hr
        obtain ⟨-, rfl⟩ := hr
        simp only [no_action, no_label, no_choice, NoC] at hno
        have h3 := noR.1 hno.2.2.1
        unfold RuleNo at h3
        simp only [grammar, no_choice, NoC] at h3
        have hi := h3.2.2.2.1
        have hb := noR.1 h3.2.2.2.2.1
        refine .here (.unknown hw ?_ ?_ ?_ ?_ ?_ ?_ ?_)
        · rintro rfl; exact quoted_head hno.1 _ _ rfl rfl
        · rintro rfl; exact regex_head hno.2.1 _ _ rfl rfl
        · exact fun h => hc h
        · intro hd
          exact int_head hi (m := []) (d := [c]) (.inl rfl) (allDigits_one hd) (by simp) rfl
        · rintro rfl x t' rfl hd
          exact int_head hi (m := ['-']) (d := [x]) (.inr rfl) (allDigits_one hd) (by simp) rfl
        · rintro ⟨r, hr⟩
          have := (okR.2 ⟨rfl, true_ok⟩ : Ok E ctx (.rule .BoolValue) [] pre ("true".toList ++ (r ++ post)) _ _ _ [])
          rw [← List.append_assoc, hr] at this
          exact this.clash (noR.2 hb)
        · rintro ⟨r, hr⟩
          have := (okR.2 ⟨rfl, false_ok⟩ : Ok E ctx (.rule .BoolValue) [] pre ("false".toList ++ (r ++ post)) _ _ _ [])
          rw [← List.append_assoc, hr] at this
          exact this.clash (noR.2 hb)
  · exact h.elim

end Aql
