import Verif.Proofs.MemoClause
/-!
A query without complaints does not end behind a backslash.
-/

namespace Aql

variable {E : Env} {I : List Sym}

/-- What was read does not end with a backslash. -/
def LastOk (c c' : Cursor) : Prop := ∃ t, Adv c t c' ∧ t.getLast? ≠ some (.ok '\\')

theorem LastOk.refl (c : Cursor) : LastOk c c := ⟨[], .refl c, by simp⟩

theorem LastOk.trans {a b c : Cursor} (h : LastOk a b) (h' : LastOk b c) : LastOk a c := by
  obtain ⟨t, h1, h2⟩ := h
  obtain ⟨u, h3, h4⟩ := h'
  refine ⟨t ++ u, h1.trans h3, ?_⟩
  rw [List.getLast?_append]
  cases hu : u.getLast? with
  | none => exact h2
  | some x => rw [hu] at h4; exact h4

theorem LastOk.after {a b c : Cursor} {t : List Sym} (h : Adv a t b) (h' : LastOk b c) (hlt : b.loc.off < c.loc.off) : LastOk a c := by
  obtain ⟨u, h3, h4⟩ := h'
  refine ⟨t ++ u, h.trans h3, ?_⟩
  rw [List.getLast?_append]
  cases hu : u.getLast? with
  | none =>
    rw [List.getLast?_eq_none_iff] at hu
    subst hu
    cases h3
    omega
  | some x => rw [hu] at h4; exact h4

/-- Rules that do not end behind a backslash. -/
def lsR : Rule → Bool
  | .EscapedChar | .SingleCharEscape | .EscapeSequence | .RegexChar | .RegexEscape => false
  | _ => true

/-- Reads something or complains. -/
def nnE (e : PExpr) : Bool :=
  !nul e || match e with
    | .rule .EndingQuote | .rule .EndingSlash => true
    | _ => false

/-- Complains. -/
def hOk : PExpr → Bool
  | .rule .ErrUntermStr | .rule .ErrUntermRegex => true
  | _ => false

mutual
def lsE : PExpr → Bool
  | .action a e => a == .onValue8 || lsE e
  | .label _ e => lsE e
  | .rule r => lsR r
  | .seq es => lsL es
  | .choice es => lsA es
  | .lit w _ _ => w.getLast? != some '\\'
  | .cls chars ranges _ inv _ =>
    (chars.contains '\\' || ranges.any (fun p => p.1 ≤ '\\' && '\\' ≤ p.2)) == inv
  | .any => false
  | .not _ => true
  | .star e => lsE e
  | .plus e => lsE e
  | .opt e => lsE e
  | .recover _ e h => lsE e && hOk h
  | .throw _ => true
  | .state _ => true
def lsL : List PExpr → Bool
  | [] => true
  | e :: es => lsL es && (es.any nnE || lsE e)
def lsA : List PExpr → Bool
  | [] => true
  | e :: es => lsE e && lsA es
end

theorem lsR_ok (r : Rule) (h : lsR r = true) : lsE (grammar r) = true := by
  cases r <;> first | decide | cases h

def CtxErr (ctx : Ctx) : Prop := ∀ p ∈ ctx.recov, hOk p.2 = true

theorem hOk_err {ctx : Ctx} {e : PExpr} {fr : VFrame} {c : Cursor} {l : List Ev} {r : Res} (he : hOk e = true)
    (h : Big E ctx (.expr e fr) c l r) : errorsOf l ≠ [] := by
  have key : ∀ {x fr l r}, Big E ctx (.expr (.state x) fr) c l r → errorsOf l ≠ [] := by
    intro x fr l r h
    cases h
    intro hh; cases hh
  unfold hOk at he
  split at he
  · cases h with
    | rule_ok h => exact fun hh => key h hh
    | rule_stop h _ => exact fun hh => key h hh
  · cases h with
    | rule_ok h => exact fun hh => key h hh
    | rule_stop h _ => exact fun hh => key h hh
  · cases he

theorem throw_err {ctx : Ctx} {x : FailLabel} {fr fr' : VFrame} {c c' : Cursor} {v : PV} :
    ∀ {rs : List (FailLabel × PExpr)} {l : List Ev}, (∀ p ∈ rs, hOk p.2 = true) →
    Big E ctx (.throw x fr rs) c l (.ok v c' fr') → errorsOf l ≠ [] := by
  intro rs
  induction rs with
  | nil => intro l _ h; cases h
  | cons p rs ih =>
    intro l hrs h
    cases h with
    | throw_skip _ h => exact ih (fun q hq => hrs q (List.mem_cons_of_mem _ hq)) h
    | throw_ok h => exact hOk_err (hrs _ List.mem_cons_self) h
    | throw_next h _ =>
      rw [errorsOf_append]
      exact fun hh => hOk_err (hrs _ List.mem_cons_self) h (List.append_eq_nil_iff.1 hh).1

theorem nnE_lt {ctx : Ctx} (hctx : CtxErr ctx) {e : PExpr} {fr fr' : VFrame} {c c' : Cursor} {v : PV} {l : List Ev}
    (he : nnE e = true) (h : Big E ctx (.expr e fr) c l (.ok v c' fr')) (hl : errorsOf l = []) : c.loc.off < c'.loc.off := by
  have key : ∀ {w want x fr l v c' fr'}, nul (.lit w false want) = false →
      Big E ctx (.expr (.choice [.lit w false want, .throw x]) fr) c l (.ok v c' fr') → errorsOf l = [] →
      c.loc.off < c'.loc.off := by
    intro w want x fr l v c' fr' hw h hl
    cases h with
    | choice h =>
      cases h with
      | choice_ok h => exact big_lt h hw
      | choice_next h1 h2 =>
        cases h2 with
        | choice_ok h2 =>
          cases h2 with
          | throw h2 =>
            exfalso
            refine throw_err hctx h2 ?_
            rw [show ∀ l : List Ev, errorsOf (.tick :: l) = errorsOf l from fun _ => rfl, errorsOf_append] at hl
            exact (List.append_eq_nil_iff.1 hl).2
        | choice_next _ h => cases h
  unfold nnE at he
  rw [Bool.or_eq_true] at he
  rcases he with he | he
  · exact big_lt h (show nul e = false by simpa using he)
  · split at he
    · cases h with
      | rule_ok h => exact key rfl h hl
      | rule_stop _ h => exact h.elim
    · cases h with
      | rule_ok h => exact key rfl h hl
      | rule_stop _ h => exact h.elim
    · cases he

theorem nn_seq {ctx : Ctx} (hctx : CtxErr ctx) : ∀ {es : List PExpr} {st : Cursor} {acc : List PV} {fr fr' : VFrame} {c c' : Cursor}
    {v : PV} {l : List Ev}, es.any nnE = true → Big E ctx (.seq st es acc fr) c l (.ok v c' fr') → errorsOf l = [] →
    c.loc.off < c'.loc.off := by
  intro es
  induction es with
  | nil => intro _ _ _ _ _ _ _ _ h; cases h
  | cons e es ih =>
    intro st acc fr fr' c c' v l hn h hl
    cases h with
    | seq_cons h1 h2 =>
      rw [errorsOf_append, List.append_eq_nil_iff] at hl
      rw [List.any_cons, Bool.or_eq_true] at hn
      have := big_le h1
      have := big_le h2
      rcases hn with hn | hn
      · have := nnE_lt hctx hn h1 hl.1; omega
      · have := ih hn h2 hl.2; omega

theorem lit_last {ic : Bool} : ∀ (w : Str) (c c' : Cursor) (l : List Ev), w.getLast? ≠ some '\\' →
    litLoop E ic w c = (l, some c') → ∃ t, Adv c t c' ∧ t.getLast? ≠ some (.ok '\\') ∧ t.length = w.length := by
  intro w
  induction w with
  | nil =>
    intro c c' l _ h
    simp only [litLoop, Prod.mk.injEq, Option.some.injEq] at h
    rw [← h.2]
    exact ⟨[], .refl _, by simp, rfl⟩
  | cons x w ih =>
    intro c c' l hw h
    unfold litLoop at h
    cases hr : c.rest with
    | nil => rw [hr] at h; simp at h
    | cons s t =>
      rw [hr] at h
      dsimp only at h
      by_cases hs : (if ic = true then goLower E s.rune else s.rune) = x
      · rw [if_pos hs] at h
        simp only [Prod.mk.injEq] at h
        cases w with
        | nil =>
          have h2 := h.2
          simp only [litLoop, Option.some.injEq] at h2
          subst h2
          refine ⟨[s], .step hr (.refl _), ?_, rfl⟩
          rintro hh
          simp only [List.getLast?_singleton, Option.some.injEq] at hh
          subst hh
          apply hw
          have : (if ic = true then goLower E (Sym.ok '\\').rune else (Sym.ok '\\').rune) = '\\' := by
            split
            · exact if_pos (by decide)
            · rfl
          rw [← hs, this]
          rfl
        | cons y w =>
          obtain ⟨u, h1, h2, h3⟩ := ih _ _ _ (by simpa using hw) (Prod.ext rfl h.2)
          refine ⟨s :: u, .step hr h1, ?_, by simp [h3]⟩
          cases u with
          | nil => simp at h3
          | cons z u => simpa using h2
      · rw [if_neg hs] at h
        simp at h

def Job.ls : Job → Prop
  | .expr e _ => lsE e = true
  | .seq _ es _ _ => lsL es = true
  | .choice _ es => lsA es = true
  | .rep _ e _ _ => lsE e = true
  | .throw _ _ rs => ∀ p ∈ rs, hOk p.2 = true

theorem big_last {ctx : Ctx} {j : Job} {c : Cursor} {l : List Ev} {r : Res} (h : Big E ctx j c l r) :
    j.ls → CtxErr ctx → errorsOf l = [] → ∀ v c' fr, r = .ok v c' fr → LastOk c c' := by
  induction h with
  | @action_ok ctx a e fr c l v c' fr' v' h ha ih =>
    intro hj hctx hl v c' fr hr
    cases hr
    simp only [Job.ls, lsE, Bool.or_eq_true, beq_iff_eq] at hj
    rcases hj with rfl | hj
    · simp only [runAct] at ha
      split at ha
      · cases ha
      · split at ha <;> cases ha
    · exact ih hj hctx hl _ _ _ rfl
  | action_err h ha ih =>
    intro hj hctx hl v c' fr hr
    rw [show ∀ l : List Ev, errorsOf (.tick :: l) = errorsOf l from fun _ => rfl, errorsOf_append] at hl
    cases (List.append_eq_nil_iff.1 hl).2
  | action_panic h ha ih => intro _ _ _ _ _ _ h; cases h
  | action_stop h hs ih => intro _ _ _ _ _ _ h; subst h; exact hs.elim
  | seq h ih => exact fun hj hctx hl => ih hj hctx hl
  | seq_nil => intro _ _ _ _ _ _ h; cases h; exact .refl _
  | @seq_cons ctx st e es acc fr c l v c1 fr' l' r h1 h2 ih1 ih2 =>
    intro hj hctx hl v c' fr hr
    subst hr
    simp only [Job.ls, lsL, Bool.and_eq_true, Bool.or_eq_true] at hj
    rw [errorsOf_append, List.append_eq_nil_iff] at hl
    have h3 := ih2 hj.1 hctx hl.2 _ _ _ rfl
    rcases hj.2 with hn | he
    · obtain ⟨t, ht⟩ := h1.ok_adv
      exact h3.after ht (nn_seq hctx hn h2 hl.2)
    · exact (ih1 he hctx hl.1 _ _ _ rfl).trans h3
  | seq_fail h ih => intro _ _ _ _ _ _ h; cases h
  | seq_panic h ih => intro _ _ _ _ _ _ h; cases h
  | choice h ih => exact fun hj hctx hl => ih hj hctx hl
  | choice_nil => intro _ _ _ _ _ _ h; cases h
  | choice_ok h ih =>
    intro hj hctx hl v c' fr hr
    cases hr
    simp only [Job.ls, lsA, Bool.and_eq_true] at hj
    exact ih hj.1 hctx hl _ _ _ rfl
  | choice_next h1 h2 ih1 ih2 =>
    intro hj hctx hl v c' fr hr
    simp only [Job.ls, lsA, Bool.and_eq_true] at hj
    rw [errorsOf_append, List.append_eq_nil_iff] at hl
    cases h1.fail_back
    exact ih2 hj.2 hctx hl.2 _ _ _ hr
  | choice_panic h ih => intro _ _ _ _ _ _ h; cases h
  | label_ok h ih => intro hj hctx hl v c' fr hr; cases hr; exact ih hj hctx hl _ _ _ rfl
  | label_stop h hs ih => intro _ _ _ _ _ _ h; subst h; exact hs.elim
  | rule_ok h ih => intro hj hctx hl v c' fr hr; cases hr; exact ih (lsR_ok _ hj) hctx hl _ _ _ rfl
  | rule_stop h hs ih => intro _ _ _ _ _ _ h; subst h; exact hs.elim
  | lit_ok h =>
    intro hj hctx hl v c' fr hr
    cases hr
    obtain ⟨t, h1, h2, _⟩ := lit_last _ _ _ _ (by simpa [Job.ls, lsE] using hj) h
    exact ⟨t, h1, h2⟩
  | lit_fail h => intro _ _ _ _ _ _ h; cases h
  | @cls_ok ctx chars ranges ic inv w fr c s t hr hm =>
    intro hj hctx hl v c' fr hh
    cases hh
    refine ⟨[s], .step hr (.refl _), ?_⟩
    intro hh
    simp only [List.getLast?_singleton, Option.some.injEq] at hh
    subst hh
    simp only [Job.ls, lsE, beq_iff_eq] at hj
    unfold clsMatch at hm
    have : (if ic = true then goLower E (Sym.ok '\\').rune else (Sym.ok '\\').rune) = '\\' := by
      split
      · exact if_pos (by decide)
      · rfl
    simp only [this, hj] at hm
    simp at hm
  | cls_fail h => intro _ _ _ _ _ _ h; cases h
  | any_ok h => intro hj; cases hj
  | any_eof h => intro _ _ _ _ _ _ h; cases h
  | not_ok h ih => intro _ _ _ _ _ _ h; cases h; exact .refl _
  | not_fail h ih => intro _ _ _ _ _ _ h; cases h
  | not_panic h ih => intro _ _ _ _ _ _ h; cases h
  | star h ih => exact fun hj hctx hl => ih hj hctx hl
  | plus h ih => exact fun hj hctx hl => ih hj hctx hl
  | rep_next h1 h2 ih1 ih2 =>
    intro hj hctx hl v c' fr hr
    rw [errorsOf_append, List.append_eq_nil_iff] at hl
    exact (ih1 hj hctx hl.1 _ _ _ rfl).trans (ih2 hj hctx hl.2 _ _ _ hr)
  | rep_stop h hs ih => intro _ _ _ _ _ _ hr; cases hr; cases h.fail_back; exact .refl _
  | rep_fail h ih => intro _ _ _ _ _ _ h; cases h
  | rep_panic h ih => intro _ _ _ _ _ _ h; cases h
  | opt_ok h ih => intro hj hctx hl v c' fr hr; cases hr; exact ih hj hctx hl _ _ _ rfl
  | opt_none h ih => intro _ _ _ _ _ _ hr; cases hr; cases h.fail_back; exact .refl _
  | opt_panic h ih => intro _ _ _ _ _ _ h; cases h
  | recover h ih =>
    intro hj hctx hl v c' fr hr
    simp only [Job.ls, lsE, Bool.and_eq_true] at hj
    refine ih hj.1 ?_ hl _ _ _ hr
    intro p hp
    rcases List.mem_cons.1 hp with rfl | hp
    · exact hj.2
    · exact hctx p hp
  | throw h ih => exact fun hj hctx hl => ih hctx hctx hl
  | throw_nil => intro _ _ _ _ _ _ h; cases h
  | throw_skip hne h ih =>
    exact fun hj hctx hl => ih (fun p hp => hj p (List.mem_cons_of_mem _ hp)) hctx hl
  | throw_ok h ih =>
    intro hj hctx hl v c' fr hr
    exact absurd hl (hOk_err (hj _ List.mem_cons_self) h)
  | throw_next h1 h2 ih1 ih2 =>
    intro hj hctx hl v c' fr hr
    rw [errorsOf_append, List.append_eq_nil_iff] at hl
    exact absurd hl.1 (hOk_err (hj _ List.mem_cons_self) h1)
  | throw_panic h ih => intro _ _ _ _ _ _ h; cases h
  | state => intro _ _ hl; cases hl

/-- A query without complaints does not end behind a backslash. -/
theorem query_end {c c' : Cursor} {fr fr' : VFrame} {l : List Ev} {v : PV} (hc : OnInput I c)
    (h : Big E ctx0 (.expr (.rule .Query) fr) c l (.ok v c' fr')) (hl : errorsOf l = []) : ¬ AfterBs I c' := by
  rintro ⟨c0, u, ⟨t0, h0⟩, hr0, hn0⟩
  obtain ⟨t, ht, hlast⟩ := big_last h rfl (by intro p hp; cases hp) hl _ _ _ rfl
  have hlt := big_lt h rfl
  obtain ⟨t1, h1⟩ := hc
  have ha : Adv (.init I) (t1 ++ t) c' := h1.trans ht
  have hb : Adv (.init I) (t0 ++ [.ok '\\']) c' := h0.trans (.step hr0 (hn0 ▸ .refl _))
  have he : t1 ++ t = t0 ++ [.ok '\\'] := by
    have := ha.rest.symm.trans hb.rest
    exact List.append_cancel_right this
  have hne : t ≠ [] := by
    rintro rfl
    cases ht
    omega
  apply hlast
  have := congrArg List.getLast? he
  rw [List.getLast?_append_of_ne_nil _ hne, List.getLast?_append_of_ne_nil _ (by simp)] at this
  simpa using this

end Aql
