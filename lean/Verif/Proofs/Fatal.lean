import Verif.Proofs.Mild
/-!
After an error that leaves no value, the parser always panics.
-/

namespace Aql
open Spec

variable {E : Env}

/-- The evaluation ended in a panic. -/
def Res.panics : Res → Prop
  | .panic .. => True
  | _ => False

/-- A panic, or the value nil. -/
def Res.nothing : Res → Prop
  | .panic .. => True
  | .ok v _ _ => v = .nil
  | .fail _ => False

/-- A panic, or one of the labels is nil. -/
def Res.lacks (xs : List PLabel) : Res → Prop
  | .panic .. => True
  | .ok _ _ fr => ∃ x ∈ xs, fr.get x = .nil
  | .fail _ => False

/-- Actions that may record a fatal error. -/
def fatalAct : Act → Bool
  | .onValueList2 | .onValue8 | .onQuotedValue2 | .onRegexValue2 | .onFloatValue1 | .onIPValue1
  | .onTimestamp1 => true
  | _ => false

/-- Labels that an action asserts to be values. -/
def asserts : Act → List PLabel
  | .onComparison19 => [.values]
  | .onQuotedFieldPiece1 => [.qv]
  | .onValueList17 => [.value]
  | .onValue2 => [.val]
  | _ => []

theorem asserts_error {a : Act} {x : PLabel} {fr : VFrame} {text : Str} {p : Loc} (hx : x ∈ asserts a)
    (hn : fr.get x = .nil) : ∃ q, runAct E a fr text p = .error q := by
  cases a <;> simp only [asserts, List.not_mem_nil, List.mem_singleton] at hx
  case onComparison19 =>
    subst hx
    simp only [runAct, hn, bind, Except.bind, PV.asVals]
    split
    · exact ⟨_, rfl⟩
    · split <;> exact ⟨_, rfl⟩
  case onQuotedFieldPiece1 => subst hx; exact ⟨.typeAssertion, by simp only [runAct, hn]; rfl⟩
  case onValueList17 => subst hx; exact ⟨.typeAssertion, by simp only [runAct, hn]; rfl⟩
  case onValue2 => subst hx; exact ⟨.typeAssertion, by simp only [runAct, hn]; rfl⟩

theorem fatal_nil {a : Act} {fr : VFrame} {text : Str} {p : Loc} {v : PV} {e : RecErr}
    (h : runAct E a fr text p = .ok (v, some e)) (hf : fatalKind e.kind = true) : fatalAct a = true ∧ v = .nil := by
  have tok : ∀ (r : Option Val) (kind : ErrKind) (k : Nat), tokResult r kind k = .ok (v, some e) → v = .nil := by
    intro r kind k h
    cases r with
    | none => cases h; rfl
    | some x => cases h
  cases a
  case onQuotedValue2 => exact ⟨rfl, tok _ _ _ h⟩
  case onRegexValue2 => exact ⟨rfl, tok _ _ _ h⟩
  case onFloatValue1 => exact ⟨rfl, tok _ _ _ h⟩
  case onIPValue1 => exact ⟨rfl, tok _ _ _ h⟩
  case onTimestamp1 => exact ⟨rfl, tok _ _ _ h⟩
  case onValue8 =>
    simp only [runAct] at h
    split at h
    · cases h
    · split at h <;> cases h <;> exact ⟨rfl, rfl⟩
  case onValueList2 =>
    simp only [runAct, bind, Except.bind, pure, Except.pure] at h
    split at h
    · cases h
    · split at h
      · cases h
      · split at h
        · cases h; exact ⟨rfl, rfl⟩
        · split at h <;> cases h
  case onBoolValue1 =>
    simp only [runAct] at h
    split at h <;> cases h
    cases hf
  case onIntValue1 =>
    simp only [runAct] at h
    split at h <;> cases h
    cases hf
  case onField1 =>
    simp only [runAct, bind, Except.bind, pure, Except.pure] at h
    split at h
    · cases h
    · split at h
      · cases h; cases hf
      · repeat' (split at h)
        all_goals cases h
  all_goals
    simp only [runAct, bind, Except.bind, pure, Except.pure] at h
    repeat' (split at h)
    all_goals cases h

/-- Rules in which nothing goes on after a fatal error (given that for `ValueList`, if `vl`). -/
def xR (vl : Bool) : Rule → Bool
  | .Start | .Query | .OrClause | .AndClause | .NotClause | .Comparison => vl
  | .ValueList | .Value | .QuotedValue | .RegexValue | .BareValue | .FloatValue | .IPValue | .Timestamp => false
  | _ => true

/-- Rules whose value is nil after a fatal error. -/
def nR (vl : Bool) : Rule → Bool
  | .Start | .Query | .OrClause | .AndClause | .NotClause | .Comparison | .ValueList => vl
  | _ => true

/-- Recovery expressions without fatal errors. -/
def hE : PExpr → Bool
  | .rule r => xR false r
  | _ => false

mutual
/-- After a fatal error in the expression comes a panic. -/
def xE (vl : Bool) : PExpr → Bool
  | .action a e => !fatalAct a && (xE vl e || gE vl (asserts a) e)
  | .seq es => xL vl es
  | .choice es => xL vl es
  | .label _ e => xE vl e
  | .rule r => xR vl r
  | .lit .. => true
  | .cls .. => true
  | .any => true
  | .not e => xE vl e
  | .star e => xE vl e
  | .plus e => xE vl e
  | .opt e => xE vl e
  | .recover _ e h => xE vl e && hE h
  | .throw _ => true
  | .state _ => true
def xL (vl : Bool) : List PExpr → Bool
  | [] => true
  | e :: es => xE vl e && xL vl es
/-- After a fatal error in the expression comes a panic or the value nil. -/
def nE (vl : Bool) : PExpr → Bool
  | .action a e => xE vl e || gE vl (asserts a) e
  | .choice es => nL vl es
  | .rule r => nR vl r
  | .recover _ e h => nE vl e && hE h
  | .seq _ => false
  | .label _ _ => false
  | .lit .. => false
  | .cls .. => false
  | .any => false
  | .not _ => false
  | .star _ => false
  | .plus _ => false
  | .opt _ => false
  | .throw _ => false
  | .state _ => false
def nL (vl : Bool) : List PExpr → Bool
  | [] => true
  | e :: es => nE vl e && nL vl es
/-- After a fatal error in the expression comes a panic, or one of the labels is nil. -/
def gE (vl : Bool) (xs : List PLabel) : PExpr → Bool
  | .label x e => nE vl e && xs.contains x
  | .seq es => gL vl xs es
  | .action _ _ => false
  | .choice _ => false
  | .rule _ => false
  | .recover _ _ _ => false
  | .lit .. => false
  | .cls .. => false
  | .any => false
  | .not _ => false
  | .star _ => false
  | .plus _ => false
  | .opt _ => false
  | .throw _ => false
  | .state _ => false
def gL (vl : Bool) (xs : List PLabel) : List PExpr → Bool
  | [] => true
  | e :: es => (xE vl e && gL vl xs es) || (gE vl xs e && es.isEmpty)
end

theorem hE_x {vl : Bool} {e : PExpr} (h : hE e = true) : xE vl e = true := by
  cases e with
  | rule r => cases vl <;> cases r <;> first | rfl | cases h
  | _ => cases h

def Job.xJ (vl : Bool) : Job → Bool
  | .expr e _ => xE vl e
  | .seq _ es _ _ => xL vl es
  | .choice _ es => xL vl es
  | .rep _ e _ _ => xE vl e
  | .throw _ _ rs => rs.all fun x => hE x.2

def Job.nJ (vl : Bool) : Job → Bool
  | .expr e _ => nE vl e
  | .choice _ es => nL vl es
  | _ => false

def Job.gJ (vl : Bool) (xs : List PLabel) : Job → Bool
  | .expr e _ => gE vl xs e
  | .seq _ es _ _ => gL vl xs es
  | _ => false

theorem xR_grammar {vl : Bool} {r : Rule} (h : xR vl r = true) : xE vl (grammar r) = true := by
  revert h
  cases vl <;> cases r <;> decide

theorem nR_grammar {vl : Bool} {r : Rule} (h : nR vl r = true) :
    (vl = true ∧ r = .ValueList) ∨ nE vl (grammar r) = true ∨ xE vl (grammar r) = true := by
  revert h
  cases vl <;> cases r <;> decide

theorem Res.panics.nothing {r : Res} (h : r.panics) : r.nothing := by
  cases r with
  | panic => trivial
  | ok => exact h.elim
  | fail => exact h.elim

theorem Res.panics.lacks {r : Res} (h : r.panics) (xs : List PLabel) : r.lacks xs := by
  cases r with
  | panic => trivial
  | ok => exact h.elim
  | fail => exact h.elim

/-- After a fatal error: a panic, or nil. -/
def Job.Dead (vl : Bool) (j : Job) (r : Res) : Prop :=
  (j.xJ vl = true → r.panics) ∧ (j.nJ vl = true → r.nothing) ∧ ∀ xs, j.gJ vl xs = true → r.lacks xs

theorem Job.Dead.panic {vl : Bool} {j : Job} {p : GoPanic} {c : Cursor} : j.Dead vl (.panic p c) :=
  ⟨fun _ => trivial, fun _ => trivial, fun _ _ => trivial⟩

/-- Nothing goes on after a fatal error, provided that the rule `ValueList` sees to it. -/
theorem Big.dead {vl : Bool} {ctx : Ctx} {j : Job} {c : Cursor} {l : List Ev} {r : Res}
    (hv : vl = true → ∀ {ctx fr c l r}, (ctx.recov.all fun x => hE x.2) = true →
      Big E ctx (.expr (.rule .ValueList) fr) c l r → hasFatal l = true → r.nothing)
    (h : Big E ctx j c l r) : (ctx.recov.all fun x => hE x.2) = true → hasFatal l = true → j.Dead vl r := by
  have act : ∀ {a : Act} {e : PExpr} {fr : VFrame} {l : List Ev} {v : PV} {c c' : Cursor} {fr' : VFrame}
      {x : PV × Option RecErr}, (hasFatal l = true → (Job.expr e fr).Dead vl (.ok v c' fr')) →
      (xE vl e || gE vl (asserts a) e) = true → runAct E a fr' (textOf c c') c.loc = .ok x → hasFatal l = false := by
    intro a e fr l v c c' fr' x hd hg hr
    cases hl : hasFatal l
    · rfl
    · obtain ⟨h1, -, h3⟩ := hd hl
      rcases Bool.or_eq_true _ _ ▸ hg with hg | hg
      · exact (h1 hg).elim
      · obtain ⟨y, hy, hn⟩ := h3 _ hg
        obtain ⟨q, hq⟩ := asserts_error (E := E) (text := textOf c c') (p := c.loc) hy hn
        rw [hq] at hr
        cases hr
  induction h with
  | @action_ok _ a e _ _ _ _ _ _ _ h ha ih =>
    intro hc hl
    have no : (xE vl e || gE vl (asserts a) e) = true → False := by
      intro hg
      have := act (ih hc) hg ha
      rw [hasFatal_tick] at hl
      rw [this] at hl
      cases hl
    refine ⟨fun hx => ?_, fun hx => (no hx).elim, nofun⟩
    simp only [Job.xJ, xE, Bool.and_eq_true] at hx
    exact (no hx.2).elim
  | @action_err _ a e _ _ _ _ _ _ _ _ h ha ih =>
    intro hc hl
    rw [hasFatal_tick, hasFatal_append, hasFatal_err] at hl
    refine ⟨fun hx => ?_, fun hx => ?_, nofun⟩
    · simp only [Job.xJ, xE, Bool.and_eq_true] at hx
      rw [act (ih hc) hx.2 ha, Bool.false_or] at hl
      have := (fatal_nil ha hl).1
      rw [this] at hx
      cases hx.1
    · rw [act (ih hc) hx ha, Bool.false_or] at hl
      exact (fatal_nil ha hl).2
  | action_panic h ha ih => intro _ _; exact .panic
  | @action_stop _ a e _ _ _ r h hs ih =>
    intro hc hl
    obtain ⟨h1, h2, h3⟩ := ih hc hl
    cases r with
    | ok => exact hs.elim
    | panic => exact .panic
    | fail =>
      have no : (xE vl e || gE vl (asserts a) e) = true → False := by
        intro hg
        rcases Bool.or_eq_true _ _ ▸ hg with hg | hg
        · exact h1 hg
        · exact h3 _ hg
      refine ⟨fun hx => ?_, fun hx => (no hx).elim, nofun⟩
      simp only [Job.xJ, xE, Bool.and_eq_true] at hx
      exact no hx.2
  | seq h ih => intro hc hl; exact ⟨(ih hc hl).1, nofun, (ih hc hl).2.2⟩
  | seq_nil => intro _ hl; cases hl
  | @seq_cons _ _ e es _ _ _ l _ _ _ l' r h1 h2 ih1 ih2 =>
    intro hc hl
    rw [hasFatal_append, Bool.or_eq_true] at hl
    refine ⟨fun hx => ?_, nofun, fun xs hx => ?_⟩
    · simp only [Job.xJ, xL, Bool.and_eq_true] at hx
      rcases hl with hl | hl
      · exact ((ih1 hc hl).1 hx.1).elim
      · exact (ih2 hc hl).1 hx.2
    · simp only [Job.gJ, gL, Bool.and_eq_true, Bool.or_eq_true] at hx
      rcases hx with hx | hx
      · rcases hl with hl | hl
        · exact ((ih1 hc hl).1 hx.1).elim
        · exact (ih2 hc hl).2.2 xs hx.2
      · have he := List.isEmpty_iff.1 hx.2
        subst he
        cases h2
        rcases hl with hl | hl
        · exact (ih1 hc hl).2.2 xs hx.1
        · cases hl
  | @seq_fail _ _ e es _ _ _ l _ h ih =>
    intro hc hl
    obtain ⟨h1, h2, h3⟩ := ih hc hl
    refine ⟨fun hx => ?_, nofun, fun xs hx => ?_⟩
    · simp only [Job.xJ, xL, Bool.and_eq_true] at hx
      exact (h1 hx.1).elim
    · simp only [Job.gJ, gL, Bool.and_eq_true, Bool.or_eq_true] at hx
      rcases hx with hx | hx
      · exact (h1 hx.1).elim
      · exact (h3 xs hx.1).elim
  | seq_panic h ih => intro _ _; exact .panic
  | choice h ih => intro hc hl; exact ⟨(ih hc hl).1, (ih hc hl).2.1, nofun⟩
  | choice_nil => intro _ hl; cases hl
  | choice_ok h ih =>
    intro hc hl
    obtain ⟨h1, h2, h3⟩ := ih hc hl
    refine ⟨fun hx => ?_, fun hx => ?_, nofun⟩
    · simp only [Job.xJ, xL, Bool.and_eq_true] at hx
      exact (h1 hx.1).elim
    · simp only [Job.nJ, nL, Bool.and_eq_true] at hx
      exact h2 hx.1
  | choice_next h1 h2 ih1 ih2 =>
    intro hc hl
    rw [hasFatal_append, Bool.or_eq_true] at hl
    refine ⟨fun hx => ?_, fun hx => ?_, nofun⟩
    · simp only [Job.xJ, xL, Bool.and_eq_true] at hx
      rcases hl with hl | hl
      · exact ((ih1 hc hl).1 hx.1).elim
      · exact (ih2 hc hl).1 hx.2
    · simp only [Job.nJ, nL, Bool.and_eq_true] at hx
      rcases hl with hl | hl
      · exact ((ih1 hc hl).2.1 hx.1).elim
      · exact (ih2 hc hl).2.1 hx.2
  | choice_panic h ih => intro _ _; exact .panic
  | @label_ok _ x e fr _ _ v _ _ h ih =>
    intro hc hl
    obtain ⟨h1, h2, h3⟩ := ih hc hl
    refine ⟨fun hx => (h1 hx).elim, nofun, fun xs hx => ?_⟩
    simp only [Job.gJ, gE, Bool.and_eq_true] at hx
    refine ⟨x, by simpa using hx.2, ?_⟩
    have : v = .nil := h2 hx.1
    subst this
    simp [VFrame.get]
  | @label_stop _ _ _ _ _ _ r h hs ih =>
    intro hc hl
    obtain ⟨h1, h2, h3⟩ := ih hc hl
    cases r with
    | ok => exact hs.elim
    | panic => exact .panic
    | fail =>
      refine ⟨fun hx => (h1 hx).elim, nofun, fun xs hx => ?_⟩
      simp only [Job.gJ, gE, Bool.and_eq_true] at hx
      exact (h2 hx.1).elim
  | @rule_ok _ x fr _ _ v c' _ h ih =>
    intro hc hl
    obtain ⟨h1, h2, h3⟩ := ih hc hl
    refine ⟨fun hx => (h1 (xR_grammar hx)).elim, fun hx => ?_, nofun⟩
    rcases nR_grammar hx with ⟨hvl, rfl⟩ | hx | hx
    · exact hv hvl hc (.rule_ok (fr := fr) h) hl
    · exact h2 hx
    · exact (h1 hx).elim
  | @rule_stop _ x fr _ _ r h hs ih =>
    intro hc hl
    obtain ⟨h1, h2, h3⟩ := ih hc hl
    refine ⟨fun hx => h1 (xR_grammar hx), fun hx => ?_, nofun⟩
    rcases nR_grammar hx with ⟨hvl, rfl⟩ | hx | hx
    · exact hv hvl hc (.rule_stop (fr := fr) h hs) hl
    · exact h2 hx
    · exact (h1 hx).nothing
  | lit_ok h =>
    intro _ hl
    rw [hasFatal_tick, hasFatal_append, hasFatal_litLoop h] at hl
    cases hl
  | lit_fail h =>
    intro _ hl
    rw [hasFatal_tick, hasFatal_append, hasFatal_litLoop h] at hl
    cases hl
  | cls_ok hr hm =>
    intro _ hl
    rw [hasFatal_tick, hasFatal_append, hasFatal_encErr] at hl
    cases hl
  | cls_fail h => intro _ hl; cases hl
  | any_ok hr =>
    intro _ hl
    rw [hasFatal_tick, hasFatal_append, hasFatal_encErr] at hl
    cases hl
  | any_eof hr => intro _ hl; cases hl
  | not_ok h ih => intro hc hl; exact ⟨fun hx => ((ih hc hl).1 hx).elim, nofun, nofun⟩
  | not_fail h ih => intro hc hl; exact ⟨fun hx => ((ih hc hl).1 hx).elim, nofun, nofun⟩
  | not_panic h ih => intro _ _; exact .panic
  | star h ih => intro hc hl; exact ⟨(ih hc hl).1, nofun, nofun⟩
  | plus h ih => intro hc hl; exact ⟨(ih hc hl).1, nofun, nofun⟩
  | rep_next h1 h2 ih1 ih2 =>
    intro hc hl
    rw [hasFatal_append, Bool.or_eq_true] at hl
    refine ⟨fun hx => ?_, nofun, nofun⟩
    rcases hl with hl | hl
    · exact ((ih1 hc hl).1 hx).elim
    · exact (ih2 hc hl).1 hx
  | rep_stop h hcond ih => intro hc hl; exact ⟨fun hx => ((ih hc hl).1 hx).elim, nofun, nofun⟩
  | rep_fail h ih => intro hc hl; exact ⟨fun hx => ((ih hc hl).1 hx).elim, nofun, nofun⟩
  | rep_panic h ih => intro _ _; exact .panic
  | opt_ok h ih => intro hc hl; exact ⟨fun hx => ((ih hc hl).1 hx).elim, nofun, nofun⟩
  | opt_none h ih => intro hc hl; exact ⟨fun hx => ((ih hc hl).1 hx).elim, nofun, nofun⟩
  | opt_panic h ih => intro _ _; exact .panic
  | recover h ih =>
    intro hc hl
    refine ⟨fun hx => ?_, fun hx => ?_, nofun⟩
    · simp only [Job.xJ, xE, Bool.and_eq_true] at hx
      exact (ih (by rw [List.all_cons, Bool.and_eq_true]; exact ⟨hx.2, hc⟩) hl).1 hx.1
    · simp only [Job.nJ, nE, Bool.and_eq_true] at hx
      exact (ih (by rw [List.all_cons, Bool.and_eq_true]; exact ⟨hx.2, hc⟩) hl).2.1 hx.1
  | throw h ih => intro hc hl; exact ⟨fun _ => (ih hc hl).1 hc, nofun, nofun⟩
  | throw_nil => intro _ hl; cases hl
  | throw_skip hne h ih =>
    intro hc hl
    refine ⟨fun hx => ?_, nofun, nofun⟩
    rw [Job.xJ, List.all_cons, Bool.and_eq_true] at hx
    exact (ih hc hl).1 hx.2
  | throw_ok h ih =>
    intro hc hl
    refine ⟨fun hx => ?_, nofun, nofun⟩
    rw [Job.xJ, List.all_cons, Bool.and_eq_true] at hx
    exact ((ih hc hl).1 (hE_x hx.1)).elim
  | throw_next h1 h2 ih1 ih2 =>
    intro hc hl
    rw [hasFatal_append, Bool.or_eq_true] at hl
    refine ⟨fun hx => ?_, nofun, nofun⟩
    rw [Job.xJ, List.all_cons, Bool.and_eq_true] at hx
    rcases hl with hl | hl
    · exact ((ih1 hc hl).1 (hE_x hx.1)).elim
    · exact (ih2 hc hl).1 hx.2
  | throw_panic h ih => intro _ _; exact .panic
  | @state _ s _ _ =>
    intro _ hl
    cases s <;> cases hl

end Aql
