import Verif.Proofs.Stack
import Verif.Spec.Stack
/-!
The depth of the recursion from above: it is a constant, but for the parentheses and the logical words of the
text.
-/

namespace Aql
open Spec

variable {E : Env}

/-! ### Occurrences -/

theorem occurs_append (w t s : Str) : occurs w s ≤ occurs w (t ++ s) := by
  induction t with
  | nil => exact Nat.le_refl _
  | cons c t ih => rw [List.cons_append, occurs]; omega

theorem occurs_word {w s : Str} (hw : w ≠ []) : occurs w s + 1 ≤ occurs w (w ++ s) := by
  cases w with
  | nil => exact absurd rfl hw
  | cons c w =>
    rw [List.cons_append, occurs, if_pos (by rw [← List.cons_append]; exact List.prefix_append _ _)]
    have := occurs_append (c :: w) w s
    omega

theorem turns_append (t s : Str) : turns s ≤ turns (t ++ s) := by
  unfold turns
  have h1 := occurs_append "(".toList t s
  have h2 := occurs_append "!".toList t s
  have h3 := occurs_append "NOT".toList t s
  have h4 := occurs_append "OR".toList t s
  have h5 := occurs_append "AND".toList t s
  omega

/-- The weight of a word. -/
def turnOf (w : Str) : Nat :=
  if w = "(".toList then 17 else if w = "!".toList then 3 else if w = "NOT".toList then 3
  else if w = "OR".toList then 5 else if w = "AND".toList then 5 else 0

theorem turns_word (w s : Str) : turns s + turnOf w ≤ turns (w ++ s) := by
  have h1 := occurs_append "(".toList w s
  have h2 := occurs_append "!".toList w s
  have h3 := occurs_append "NOT".toList w s
  have h4 := occurs_append "OR".toList w s
  have h5 := occurs_append "AND".toList w s
  unfold turnOf
  split
  · rename_i h; subst h; have := occurs_word (w := "(".toList) (s := s) (by decide); unfold turns; omega
  split
  · rename_i h; subst h; have := occurs_word (w := "!".toList) (s := s) (by decide); unfold turns; omega
  split
  · rename_i h; subst h; have := occurs_word (w := "NOT".toList) (s := s) (by decide); unfold turns; omega
  split
  · rename_i h; subst h; have := occurs_word (w := "OR".toList) (s := s) (by decide); unfold turns; omega
  split
  · rename_i h; subst h; have := occurs_word (w := "AND".toList) (s := s) (by decide); unfold turns; omega
  · exact turns_append w s

/-- What is left to read. -/
def Cursor.text (c : Cursor) : Str := c.rest.map Sym.rune

theorem litLoop_text {w : Str} : ∀ {c : Cursor} {l : List Ev} {c' : Cursor},
    litLoop E false w c = (l, some c') → c.text = w ++ c'.text := by
  induction w with
  | nil => intro c l c' h; cases h; rfl
  | cons x w ih =>
    intro c l c' h
    unfold litLoop at h
    rcases hr : c.rest with _ | ⟨s, t⟩
    · rw [hr] at h; cases h
    · rw [hr] at h
      simp only [Bool.false_eq_true, if_false] at h
      by_cases hx : s.rune = x
      · rw [if_pos hx] at h
        rcases h2 : litLoop E false w c.next with ⟨l2, _ | c2⟩
        · rw [h2] at h; cases h
        · rw [h2] at h
          cases h
          have := ih h2
          unfold Cursor.text at this ⊢
          rw [next_rest hr] at this
          rw [hr, List.map_cons, this, hx]
          rfl
      · rw [if_neg hx] at h; cases h

theorem adv_turns {c c' : Cursor} {t : List Sym} (h : Adv c t c') : turns c'.text ≤ turns c.text := by
  unfold Cursor.text
  rw [h.rest, List.map_append]
  exact turns_append _ _

theorem ok_turns {ctx : Ctx} {j : Job} {c : Cursor} {l : List Ev} {v : PV} {c' : Cursor} {fr' : VFrame}
    (h : Big E ctx j c l (.ok v c' fr')) : turns c'.text ≤ turns c.text := by
  obtain ⟨t, ht⟩ := h.ok_adv
  exact adv_turns ht

/-! ### Expressions that read such a word -/

/-- The weight of what the expression reads. -/
def hinge : PExpr → Nat
  | .rule .logicalOR => 5
  | .rule .logicalAND => 5
  | .rule .logicalNOT => 3
  | .lit w false _ => turnOf w
  | _ => 0

theorem lit_turns {ctx : Ctx} {w x : Str} {fr : VFrame} {c : Cursor} {l : List Ev} {v : PV} {c' : Cursor}
    {fr' : VFrame} (h : Big E ctx (.expr (.lit w false x) fr) c l (.ok v c' fr')) :
    turns c'.text + turnOf w ≤ turns c.text := by
  cases h with
  | lit_ok h => rw [litLoop_text h]; exact turns_word _ _

theorem hinge_turns {ctx : Ctx} {e : PExpr} {fr : VFrame} {c : Cursor} {l : List Ev} {v : PV} {c' : Cursor}
    {fr' : VFrame} (h : Big E ctx (.expr e fr) c l (.ok v c' fr')) : turns c'.text + hinge e ≤ turns c.text := by
  have h0 := ok_turns h
  unfold hinge
  split
  · cases h with
    | rule_ok h => exact lit_turns h
    | rule_stop h hs => exact hs.elim
  · cases h with
    | rule_ok h => exact lit_turns h
    | rule_stop h hs => exact hs.elim
  · cases h with
    | rule_stop h hs => exact hs.elim
    | rule_ok h =>
      cases h with
      | choice h =>
        cases h with
        | choice_ok h =>
          cases h with
          | seq h =>
            cases h with
            | seq_cons h1 h2 =>
              have := lit_turns h1
              have := ok_turns h2
              have : turnOf ['N', 'O', 'T'] = 3 := by decide
              omega
        | choice_next h h' =>
          have hb := h.fail_back
          subst hb
          cases h' with
          | choice_ok h =>
            cases h with
            | seq h =>
              cases h with
              | seq_cons h1 h2 =>
                have := lit_turns h1
                have := ok_turns h2
                have : turnOf ['!'] = 3 := by decide
                omega
          | choice_next h h' => cases h'
  · exact lit_turns h
  · exact h0

/-! ### The constant -/

/-- Depth of the evaluation of a rule, but for those words. -/
def hrule : Rule → Nat
  | .Start => 51 | .Query => 47 | .OrClause => 43 | .AndClause => 38 | .NotClause => 33
  | .Comparison => 31 | .Field => 24 | .FieldPiece => 18 | .UnquotedFieldPiece => 4
  | .QuotedFieldPiece => 16 | .Star => 3 | .ValueList => 26 | .Value => 22 | .QuotedValue => 13
  | .EndingQuote => 5 | .EscapedChar => 2 | .EscapeSequence => 6 | .SingleCharEscape => 2
  | .UnicodeEscape => 4 | .HexDigit => 2 | .ValueChars => 2 | .RegexValue => 15 | .RegexChar => 10
  | .RegexEscape => 7 | .EndingSlash => 5 | .BareValue => 17 | .BoolValue => 4 | .FloatValue => 5
  | .IntValue => 5 | .IPValue => 8 | .Octet => 4 | .CIDRBlock => 4 | .Timestamp => 15
  | .dateTime => 12 | .fullDate => 6 | .dateFullyear => 4 | .dateMonth => 4 | .dateMday => 4
  | .timeHour => 4 | .timeMinute => 4 | .timeSecond => 4 | .timeSecfrac => 4 | .timeNumoffset => 6
  | .timeOffset => 8 | .partialTime => 7 | .fullTime => 10 | .Digit4 => 3 | .Digit2 => 3
  | .logicalOR => 2 | .logicalAND => 2 | .logicalNOT => 7 | .opNoArgs => 4 | .opComp => 6
  | .ws => 3 | .space => 3 | .EOL => 2 | .EOF => 3 | .ErrUntermStr => 2 | .ErrUntermRegex => 2

mutual
/-- Depth of the evaluation of an expression, but for those words. -/
def hcost : PExpr → Nat
  | .action _ e => hcost e + 1
  | .seq es => hcostSeq es + 1
  | .choice es => hcostMax es + 1
  | .label _ e => hcost e + 1
  | .rule r => hrule r
  | .lit .. => 1
  | .cls .. => 1
  | .any => 1
  | .not e => hcost e + 1
  | .star e => hcost e + 1
  | .plus e => hcost e + 1
  | .opt e => hcost e + 1
  | .recover _ e _ => hcost e + 1
  | .throw _ => 3
  | .state _ => 1
def hcostSeq : List PExpr → Nat
  | [] => 0
  | e :: es => max (hcost e) (hcostSeq es - hinge e)
def hcostMax : List PExpr → Nat
  | [] => 0
  | e :: es => max (hcost e) (hcostMax es)
end

mutual
/-- Recovery expressions have depth 2. -/
def hwf : PExpr → Bool
  | .action _ e => hwf e
  | .seq es => hwfAll es
  | .choice es => hwfAll es
  | .label _ e => hwf e
  | .not e => hwf e
  | .star e => hwf e
  | .plus e => hwf e
  | .opt e => hwf e
  | .recover _ e h => hwf e && hwf h && hcost h ≤ 2
  | .rule _ => true
  | .lit .. => true
  | .cls .. => true
  | .any => true
  | .throw _ => true
  | .state _ => true
def hwfAll : List PExpr → Bool
  | [] => true
  | e :: es => hwf e && hwfAll es
end

theorem grammar_hwf (r : Rule) : hwf (grammar r) = true := by cases r <;> decide

theorem grammar_hcost (r : Rule) : hcost (grammar r) + 1 ≤ hrule r := by cases r <;> decide

/-- Recovery expressions of a context. -/
def HCtx (ctx : Ctx) : Prop := ∀ p ∈ ctx.recov, hwf p.2 = true ∧ hcost p.2 ≤ 2

theorem dRun_turns (f : Nat) : ∀ ctx e fr c r d, hwf e = true → HCtx ctx → dRun E f ctx e fr c = some (r, d) →
    d ≤ turns c.text + hcost e := by
  induction f with
  | zero => intro ctx e fr c r d _ _ h; cases h
  | succ f ih =>
    intro ctx e fr c r d hw hctx h
    obtain ⟨g, k, hg, rfl, h⟩ := dRun_succ h
    cases hg
    have hrep : ∀ (e : PExpr) (one : Bool), hwf e = true → ∀ n acc c r k,
        dRepLoop (dRun E f) ctx fr e one n acc c = some (r, k) → k ≤ turns c.text + hcost e := by
      intro e one hw n
      induction n with
      | zero => intro acc c r k h; cases h
      | succ n ihn =>
        intro acc c r k h
        rw [dRepLoop] at h
        rcases hd : dRun E f ctx e [] c with _ | ⟨r', d'⟩
        · rw [hd] at h; cases h
        · have h1 := ih _ _ _ _ _ _ hw hctx hd
          rw [hd] at h
          cases r' with
          | ok v c' fr' =>
            obtain ⟨l, hb⟩ := dRun_big hd
            have := ok_turns hb
            simp only [deeper] at h
            rcases hn : dRepLoop (dRun E f) ctx fr e one n (acc ++ [v]) c' with _ | ⟨r2, k2⟩
            · rw [hn] at h; cases h
            · rw [hn] at h
              cases h
              have := ihn _ _ _ _ hn
              simp only
              omega
          | fail c' => cases h; exact h1
          | panic p c' => cases h; exact h1
    cases e with
    | action a e =>
      simp only [dStep] at h
      simp only [hcost]
      rcases hd : dRun E f ctx e fr c with _ | ⟨r', d'⟩
      · rw [hd] at h; cases h
      · have h1 := ih _ e _ _ _ _ hw hctx hd
        rw [hd] at h
        cases r' with
        | ok v c' fr' =>
          dsimp only at h
          rcases hr : runAct E a fr' (textOf c c') c.loc with p | ⟨v, er⟩
          · rw [hr] at h; cases h; omega
          · rw [hr] at h; cases h; omega
        | fail c' => cases h; omega
        | panic p c' => cases h; omega
    | seq es =>
      simp only [hcost]
      have key : ∀ (es : List PExpr), hwfAll es = true → ∀ st acc fr c r k,
          dSeqLoop (dRun E f) ctx st es acc fr c = some (r, k) → k ≤ turns c.text + hcostSeq es := by
        intro es
        induction es with
        | nil => intro _ st acc fr c r k h; cases h; exact Nat.zero_le _
        | cons e es ihs =>
          intro hw st acc fr c r k h
          simp only [hwfAll, Bool.and_eq_true] at hw
          simp only [hcostSeq]
          rw [dSeqLoop] at h
          rcases hd : dRun E f ctx e fr c with _ | ⟨r', d'⟩
          · rw [hd] at h; cases h
          · have h1 := ih _ _ _ _ _ _ hw.1 hctx hd
            rw [hd] at h
            cases r' with
            | ok v c' fr' =>
              obtain ⟨l, hb⟩ := dRun_big hd
              have := hinge_turns hb
              simp only [deeper] at h
              rcases hn : dSeqLoop (dRun E f) ctx st es (acc ++ [v]) fr' c' with _ | ⟨r2, k2⟩
              · rw [hn] at h; cases h
              · rw [hn] at h
                cases h
                have := ihs hw.2 _ _ _ _ _ _ hn
                simp only
                omega
            | fail c' => cases h; omega
            | panic p c' => cases h; omega
      have := key es hw _ _ _ _ _ _ h
      omega
    | choice es =>
      simp only [hcost]
      have key : ∀ (es : List PExpr), hwfAll es = true → ∀ r k,
          dChoiceLoop (dRun E f) ctx fr es c = some (r, k) → k ≤ turns c.text + hcostMax es := by
        intro es
        induction es with
        | nil => intro _ r k h; cases h; exact Nat.zero_le _
        | cons e es ihs =>
          intro hw r k h
          simp only [hwfAll, Bool.and_eq_true] at hw
          simp only [hcostMax]
          rw [dChoiceLoop] at h
          rcases hd : dRun E f ctx e [] c with _ | ⟨r', d'⟩
          · rw [hd] at h; cases h
          · have h1 := ih _ _ _ _ _ _ hw.1 hctx hd
            obtain ⟨l, hb⟩ := dRun_big hd
            rw [hd] at h
            cases r' with
            | ok v c' fr' => cases h; omega
            | fail c' =>
              rw [hb.fail_back] at h
              simp only [deeper] at h
              rcases hn : dChoiceLoop (dRun E f) ctx fr es c with _ | ⟨r2, k2⟩
              · rw [hn] at h; cases h
              · rw [hn] at h
                cases h
                have := ihs hw.2 _ _ hn
                simp only
                omega
            | panic p c' => cases h; omega
      have := key es hw _ _ h
      omega
    | label x e =>
      simp only [dStep] at h
      simp only [hcost]
      rcases hd : dRun E f ctx e [] c with _ | ⟨r', d'⟩
      · rw [hd] at h; cases h
      · have h1 := ih _ e _ _ _ _ hw hctx hd
        rw [hd] at h
        cases r' <;> cases h <;> omega
    | rule x =>
      simp only [dStep] at h
      simp only [hcost]
      rcases hd : dRun E f ctx (grammar x) [] c with _ | ⟨r', d'⟩
      · rw [hd] at h; cases h
      · have h1 := ih _ _ _ _ _ _ (grammar_hwf x) hctx hd
        have h2 := grammar_hcost x
        rw [hd] at h
        cases r' <;> cases h <;> omega
    | lit val ic want =>
      simp only [dStep] at h
      simp only [hcost]
      rcases hl : litLoop E ic val c with ⟨l, _ | c'⟩ <;> rw [hl] at h <;> cases h <;> omega
    | cls chars ranges ic inv want =>
      simp only [dStep] at h
      simp only [hcost]
      rcases hr : c.rest with _ | ⟨s, t⟩
      · rw [hr] at h; cases h; omega
      · rw [hr] at h
        dsimp only at h
        by_cases hm : clsMatch E chars ranges ic inv s.rune = true
        · rw [if_pos hm] at h; cases h; omega
        · rw [if_neg hm] at h; cases h; omega
    | any =>
      simp only [dStep] at h
      simp only [hcost]
      rcases hr : c.rest with _ | ⟨s, t⟩ <;> rw [hr] at h <;> cases h <;> omega
    | not e =>
      simp only [dStep] at h
      simp only [hcost]
      rcases hd : dRun E f { ctx with inv := !ctx.inv } e [] c with _ | ⟨r', d'⟩
      · rw [hd] at h; cases h
      · have h1 := ih _ e _ _ _ _ hw (show HCtx { ctx with inv := !ctx.inv } from hctx) hd
        rw [hd] at h
        cases r' <;> cases h <;> omega
    | star e =>
      simp only [hcost]
      have := hrep e false hw _ _ _ _ _ h
      omega
    | plus e =>
      simp only [hcost]
      have := hrep e true hw _ _ _ _ _ h
      omega
    | opt e =>
      simp only [dStep] at h
      simp only [hcost]
      rcases hd : dRun E f ctx e [] c with _ | ⟨r', d'⟩
      · rw [hd] at h; cases h
      · have h1 := ih _ e _ _ _ _ hw hctx hd
        rw [hd] at h
        cases r' <;> cases h <;> omega
    | recover x e hd =>
      simp only [hcost]
      simp only [hwf, Bool.and_eq_true, decide_eq_true_eq] at hw
      have := ih { ctx with recov := (x, hd) :: ctx.recov } _ _ _ _ _ hw.1.1 (by
        intro p hp
        rcases List.mem_cons.1 hp with rfl | hp
        · exact ⟨hw.1.2, hw.2⟩
        · exact hctx p hp) h
      omega
    | throw x =>
      simp only [hcost]
      have key : ∀ rs : List (FailLabel × PExpr), (∀ p ∈ rs, hwf p.2 = true ∧ hcost p.2 ≤ 2) → ∀ r k,
          dThrowLoop (dRun E f) ctx x fr rs c = some (r, k) → k ≤ turns c.text + 2 := by
        intro rs
        induction rs with
        | nil => intro _ r k h; cases h; omega
        | cons p rs ihs =>
          obtain ⟨l', e⟩ := p
          intro hrs r k h
          rw [dThrowLoop] at h
          by_cases hl : l' = x
          · rw [if_pos hl] at h
            have he := hrs (l', e) (by simp)
            rcases hd : dRun E f ctx e fr c with _ | ⟨r', d'⟩
            · rw [hd] at h; cases h
            · have h1 := ih _ _ _ _ _ _ he.1 hctx hd
              have h2 : hcost e ≤ 2 := he.2
              obtain ⟨l, hb⟩ := dRun_big hd
              rw [hd] at h
              cases r' with
              | ok v c' fr' => cases h; omega
              | fail c' =>
                rw [hb.fail_back] at h
                simp only [deeper] at h
                rcases hn : dThrowLoop (dRun E f) ctx x fr rs c with _ | ⟨r2, k2⟩
                · rw [hn] at h; cases h
                · rw [hn] at h
                  cases h
                  have := ihs (fun p hp => hrs p (by simp [hp])) _ _ hn
                  simp only
                  omega
              | panic p c' => cases h; omega
          · rw [if_neg hl] at h
            exact ihs (fun p hp => hrs p (by simp [hp])) _ _ h
      have := key ctx.recov hctx _ _ h
      omega
    | state s => cases h; simp only [hcost]; omega

/-- The count is at most fifty, but for the parentheses and the logical words. -/
theorem stackDepth_turns (input : List Sym) (d : Nat) (h : stackDepth E input = some d) :
    d ≤ turns (input.map Sym.rune) + 50 := by
  rw [stackDepth] at h
  rcases hr : dRun E (depthBound input.length) ⟨false, []⟩ (grammar .Start) [] (.init input) with _ | ⟨r, d'⟩
  · rw [hr] at h; cases h
  · rw [hr] at h
    cases h
    have := dRun_turns (E := E) _ _ _ _ _ _ _ (grammar_hwf .Start) (by intro p hp; cases hp) hr
    have hc := grammar_hcost .Start
    have h51 : hrule .Start = 51 := rfl
    have e : (Cursor.init input).text = input.map Sym.rune := rfl
    rw [e] at this
    show d' ≤ _
    omega

end Aql
