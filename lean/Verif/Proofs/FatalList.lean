import Verif.Proofs.Fatal
import Verif.Proofs.Parser
/-!
Lists of values after a fatal error: if the list is not closed, its opening parenthesis is read as a
value, which is another fatal error.
-/

namespace Aql
open Spec

variable {E : Env}

/-- Rules that do not match at an opening parenthesis. -/
def rejR : Rule → Bool
  | .QuotedValue | .RegexValue | .BareValue | .Timestamp | .IPValue | .FloatValue | .IntValue | .BoolValue
  | .Octet | .dateTime | .fullDate | .dateFullyear | .Digit4 => true
  | _ => false

mutual
/-- Does the expression fail at an opening parenthesis? -/
def rejE : PExpr → Bool
  | .lit s ic _ => !ic && s.head?.any (· != '(')
  | .cls chars ranges ic inv _ => !ic && ((chars.contains '(' || ranges.any fun p => p.1 ≤ '(' && '(' ≤ p.2) == inv)
  | .action _ e => rejE e
  | .seq es => rejL es
  | .choice es => rejA es
  | .label _ e => rejE e
  | .rule r => rejR r
  | .plus e => rejE e
  | .recover _ e _ => rejE e
  | .any => false
  | .not _ => false
  | .star _ => false
  | .opt _ => false
  | .throw _ => false
  | .state _ => false
def rejL : List PExpr → Bool
  | [] => false
  | e :: es => rejE e || (stayE e && rejL es)
def rejA : List PExpr → Bool
  | [] => true
  | e :: es => rejE e && rejA es
/-- Does the expression match nothing at an opening parenthesis? -/
def stayE : PExpr → Bool
  | .opt e => rejE e
  | .lit .. => false
  | .cls .. => false
  | .action _ _ => false
  | .seq _ => false
  | .choice _ => false
  | .label _ _ => false
  | .rule _ => false
  | .plus _ => false
  | .recover _ _ _ => false
  | .any => false
  | .not _ => false
  | .star _ => false
  | .throw _ => false
  | .state _ => false
end

theorem rejR_grammar {r : Rule} (h : rejR r = true) : rejE (grammar r) = true := by
  revert h
  cases r <;> decide

def Job.rejJ : Job → Bool
  | .expr e _ => rejE e
  | .seq _ es _ _ => rejL es
  | .choice _ es => rejA es
  | .rep _ e one acc => rejE e && (one && acc.isEmpty)
  | .throw _ _ _ => false

def Job.stayJ : Job → Bool
  | .expr e _ => stayE e
  | _ => false

/-- The current rune is an opening parenthesis. -/
def AtParen (c : Cursor) : Prop := ∃ s t, c.rest = s :: t ∧ s.rune = '('

theorem Big.rejects {ctx : Ctx} {j : Job} {c : Cursor} {l : List Ev} {r : Res} (h : Big E ctx j c l r) :
    AtParen c → (j.rejJ = true → ∃ c', r = .fail c') ∧ (j.stayJ = true → ∃ v fr, r = .ok v c fr) := by
  induction h with
  | action_ok h ha ih => intro hp; exact ⟨fun hj => (by obtain ⟨_, h⟩ := (ih hp).1 hj; cases h), nofun⟩
  | action_err h ha ih => intro hp; exact ⟨fun hj => (by obtain ⟨_, h⟩ := (ih hp).1 hj; cases h), nofun⟩
  | action_panic h ha ih => intro hp; exact ⟨fun hj => (by obtain ⟨_, h⟩ := (ih hp).1 hj; cases h), nofun⟩
  | action_stop h hs ih => intro hp; exact ⟨(ih hp).1, nofun⟩
  | seq h ih => intro hp; exact ⟨(ih hp).1, nofun⟩
  | seq_nil => intro _; exact ⟨nofun, nofun⟩
  | seq_cons h1 h2 ih1 ih2 =>
    intro hp
    refine ⟨fun hj => ?_, nofun⟩
    simp only [Job.rejJ, rejL, Bool.or_eq_true, Bool.and_eq_true] at hj
    rcases hj with hj | hj
    · obtain ⟨_, h⟩ := (ih1 hp).1 hj; cases h
    · obtain ⟨_, _, h⟩ := (ih1 hp).2 hj.1
      cases h
      exact (ih2 hp).1 hj.2
  | seq_fail h ih => intro hp; exact ⟨fun _ => ⟨_, rfl⟩, nofun⟩
  | seq_panic h ih =>
    intro hp
    refine ⟨fun hj => ?_, nofun⟩
    simp only [Job.rejJ, rejL, Bool.or_eq_true, Bool.and_eq_true] at hj
    rcases hj with hj | hj
    · obtain ⟨_, h⟩ := (ih hp).1 hj; cases h
    · obtain ⟨_, _, h⟩ := (ih hp).2 hj.1; cases h
  | choice h ih => intro hp; exact ⟨(ih hp).1, nofun⟩
  | choice_nil => intro _; exact ⟨fun _ => ⟨_, rfl⟩, nofun⟩
  | choice_ok h ih =>
    intro hp
    refine ⟨fun hj => ?_, nofun⟩
    simp only [Job.rejJ, rejA, Bool.and_eq_true] at hj
    obtain ⟨_, h⟩ := (ih hp).1 hj.1; cases h
  | choice_next h1 h2 ih1 ih2 =>
    intro hp
    refine ⟨fun hj => ?_, nofun⟩
    simp only [Job.rejJ, rejA, Bool.and_eq_true] at hj
    have hb := h1.fail_back
    subst hb
    exact (ih2 hp).1 hj.2
  | choice_panic h ih =>
    intro hp
    refine ⟨fun hj => ?_, nofun⟩
    simp only [Job.rejJ, rejA, Bool.and_eq_true] at hj
    obtain ⟨_, h⟩ := (ih hp).1 hj.1; cases h
  | label_ok h ih => intro hp; exact ⟨fun hj => (by obtain ⟨_, h⟩ := (ih hp).1 hj; cases h), nofun⟩
  | label_stop h hs ih => intro hp; exact ⟨(ih hp).1, nofun⟩
  | rule_ok h ih =>
    intro hp; exact ⟨fun hj => (by obtain ⟨_, h⟩ := (ih hp).1 (rejR_grammar hj); cases h), nofun⟩
  | rule_stop h hs ih => intro hp; exact ⟨fun hj => (ih hp).1 (rejR_grammar hj), nofun⟩
  | @lit_ok _ s ic _ _ _ _ _ h =>
    rintro ⟨x, t, hr, hx⟩
    refine ⟨fun hj => ?_, nofun⟩
    simp only [Job.rejJ, rejE, Bool.and_eq_true] at hj
    cases ic with
    | true => cases hj.1
    | false =>
      cases s with
      | nil => cases hj.2
      | cons w ws =>
        have hw : ¬ ('(' = w) := by
          have := hj.2
          simp at this
          exact fun h => this h.symm
        simp only [litLoop, hr, hx, Bool.false_eq_true, if_false, if_neg hw] at h
        cases h
  | lit_fail h => intro _; exact ⟨fun _ => ⟨_, rfl⟩, nofun⟩
  | @cls_ok _ chars ranges ic inv _ _ _ s t hr hm =>
    rintro ⟨x, t, hr', hx⟩
    rw [hr] at hr'
    cases hr'
    refine ⟨fun hj => ?_, nofun⟩
    simp only [Job.rejJ, rejE, Bool.and_eq_true] at hj
    cases ic with
    | true => cases hj.1
    | false =>
      simp only [clsMatch, hx, Bool.false_eq_true, if_false] at hm
      rw [bne_iff_ne] at hm
      exact absurd (by simpa using hj.2) hm
  | cls_fail h => intro _; exact ⟨fun _ => ⟨_, rfl⟩, nofun⟩
  | any_ok hr => intro _; exact ⟨nofun, nofun⟩
  | any_eof hr => intro _; exact ⟨nofun, nofun⟩
  | not_ok h ih => intro _; exact ⟨nofun, nofun⟩
  | not_fail h ih => intro _; exact ⟨nofun, nofun⟩
  | not_panic h ih => intro _; exact ⟨nofun, nofun⟩
  | star h ih => intro _; exact ⟨nofun, nofun⟩
  | plus h ih => intro hp; exact ⟨fun hj => (ih hp).1 (by simpa [Job.rejJ, rejE] using hj), nofun⟩
  | rep_next h1 h2 ih1 ih2 =>
    intro hp
    refine ⟨fun hj => ?_, nofun⟩
    simp only [Job.rejJ, Bool.and_eq_true] at hj
    obtain ⟨_, h⟩ := (ih1 hp).1 hj.1; cases h
  | rep_stop h hcond ih =>
    intro hp
    refine ⟨fun hj => ?_, nofun⟩
    simp only [Job.rejJ, Bool.and_eq_true] at hj
    exact absurd ⟨hj.2.1, List.isEmpty_iff.1 hj.2.2⟩ hcond
  | rep_fail h ih => intro _; exact ⟨fun _ => ⟨_, rfl⟩, nofun⟩
  | rep_panic h ih =>
    intro hp
    refine ⟨fun hj => ?_, nofun⟩
    simp only [Job.rejJ, Bool.and_eq_true] at hj
    obtain ⟨_, h⟩ := (ih hp).1 hj.1; cases h
  | opt_ok h ih => intro hp; exact ⟨nofun, fun hj => by obtain ⟨_, h⟩ := (ih hp).1 hj; cases h⟩
  | opt_none h ih =>
    intro hp
    have hb := h.fail_back
    subst hb
    exact ⟨nofun, fun hj => ⟨_, _, rfl⟩⟩
  | opt_panic h ih => intro hp; exact ⟨nofun, fun hj => by obtain ⟨_, h⟩ := (ih hp).1 hj; cases h⟩
  | recover h ih => intro hp; exact ⟨(ih hp).1, nofun⟩
  | throw h ih => intro _; exact ⟨nofun, nofun⟩
  | throw_nil => intro _; exact ⟨nofun, nofun⟩
  | throw_skip hne h ih => intro _; exact ⟨nofun, nofun⟩
  | throw_ok h ih => intro _; exact ⟨nofun, nofun⟩
  | throw_next h1 h2 ih1 ih2 => intro _; exact ⟨nofun, nofun⟩
  | throw_panic h ih => intro _; exact ⟨nofun, nofun⟩
  | state => intro _; exact ⟨nofun, nofun⟩

/-- A repetition that has matched does not fail. -/
theorem rep_no_fail {ctx : Ctx} {j : Job} {c : Cursor} {l : List Ev} {r : Res} (h : Big E ctx j c l r) :
    ∀ {fr e one acc c'}, j = .rep fr e one acc → acc ≠ [] → r = .fail c' → False := by
  induction h with
  | rep_next _ _ _ ih2 => rintro fr e one acc c' ⟨⟩ hn hr; exact ih2 rfl (by simp) hr
  | rep_stop => rintro fr e one acc c' ⟨⟩ hn hr; cases hr
  | rep_fail => rintro fr e one acc c' ⟨⟩ hn hr; exact hn rfl
  | rep_panic => rintro fr e one acc c' ⟨⟩ hn hr; cases hr
  | _ => rintro fr e one acc c' hj; cases hj

/-- An opening parenthesis where a value should be is a fatal error. -/
theorem value_at_paren {ctx : Ctx} {fr : VFrame} {c : Cursor} {l : List Ev} {r : Res}
    (h : Big E ctx (.expr (.rule .Value) fr) c l r) (hp : AtParen c) : hasFatal l = true ∨ r.panics := by
  have main : ∀ {l r}, Big E ctx (.expr (grammar .Value) []) c l r → hasFatal l = true ∨ r.panics := by
    intro l r h
    cases h with
    | choice h =>
    cases h with
    | choice_ok h => obtain ⟨_, h⟩ := (h.rejects hp).1 (by decide); cases h
    | choice_panic h => obtain ⟨_, h⟩ := (h.rejects hp).1 (by decide); cases h
    | choice_next h1 h2 =>
    rw [h1.fail_back] at h2
    rw [hasFatal_tick, hasFatal_append, Bool.or_eq_true]
    have nofail : ∀ {l c' fr}, Big E ctx (.expr (.plus (.cls [' ', '\n', '\t', '\r'] [] false true
        "[^ \\n\\t\\r]".toList)) fr) c l (.fail c') → False := by
      intro l c' fr h
      cases h with
      | plus h =>
      have : ∀ {l c'}, Big E ctx (.expr (.cls [' ', '\n', '\t', '\r'] [] false true "[^ \\n\\t\\r]".toList) []) c l
          (.fail c') → False := by
        intro l c' h
        cases h with
        | cls_fail h =>
        obtain ⟨s, t, hr, hs⟩ := hp
        have := h s t hr
        rw [hs] at this
        cases this
      cases h with
      | rep_fail h => exact this h
      | rep_next h1 h2 =>
        exact rep_no_fail h2 rfl (by simp) rfl
    have act : ∀ {l r}, Big E ctx (.expr (.action .onValue8 (.plus (.cls [' ', '\n', '\t', '\r'] [] false true
        "[^ \\n\\t\\r]".toList))) []) c l r → hasFatal l = true ∨ r.panics := by
      intro l r h
      cases h with
      | action_ok h hr =>
        simp only [runAct] at hr
        split at hr
        · cases hr
        · split at hr <;> cases hr
      | action_err h hr =>
        left
        rw [hasFatal_tick, hasFatal_append, hasFatal_err]
        simp only [runAct] at hr
        split at hr
        · cases hr
        · split at hr <;> cases hr <;> simp [fatalKind]
      | action_panic h hr => exact .inr trivial
      | action_stop h hs =>
        cases r with
        | ok => exact hs.elim
        | panic => exact .inr trivial
        | fail => exact (nofail h).elim
    cases h2 with
    | choice_ok h2 => exact (act h2).imp .inr (fun h => False.elim h)
    | choice_panic h2 => exact .inr trivial
    | choice_next h2 h3 =>
      cases h3
      exact (act h2).imp (fun h => .inr (by rw [hasFatal_append, h]; rfl)) fun h => False.elim h
  cases h with
  | rule_ok h => exact (main h).imp id fun h => False.elim h
  | rule_stop h hs => rw [hasFatal_tick]; exact main h

theorem rep_list {ctx : Ctx} {j : Job} {c : Cursor} {l : List Ev} {r : Res} (h : Big E ctx j c l r) :
    ∀ {fr e one acc}, j = .rep fr e one acc → acc ≠ [] →
      r.panics ∨ ∃ vs c' fr', r = .ok (.list (acc ++ vs)) c' fr' := by
  induction h with
  | rep_next _ _ _ ih2 =>
    rintro fr e one acc ⟨⟩ hn
    rcases ih2 rfl (by simp) with h | ⟨vs, c', fr', rfl⟩
    · exact .inl h
    · exact .inr ⟨_ :: vs, c', fr', by rw [List.append_assoc]; rfl⟩
  | rep_stop => rintro fr e one acc ⟨⟩ hn; exact .inr ⟨[], _, _, by rw [List.append_nil]⟩
  | rep_fail => rintro fr e one acc ⟨⟩ hn; exact absurd rfl hn
  | rep_panic => rintro fr e one acc ⟨⟩ hn; exact .inl trivial
  | _ => rintro fr e one acc hj; cases hj

/-- The elements after the first one: after a fatal error one of them is nil. -/
theorem rest_dead {ctx : Ctx} {j : Job} {c : Cursor} {l : List Ev} {r : Res} (h : Big E ctx j c l r)
    (hc : (ctx.recov.all fun x => hE x.2) = true) : ∀ {e fr one acc}, j = .rep fr e one acc → hasFatal l = true →
      e = .seq [.rule .ws, .lit [','] false "\",\"".toList, .rule .ws, .rule .Value] →
      r.panics ∨ ∃ vs c' fr', r = .ok (.list (acc ++ vs)) c' fr' ∧ ∃ q, mapPieces 3 PV.asVal vs = .error q := by
  have elem : ∀ {fr c l r}, Big E ctx (.expr (.seq [.rule .ws, .lit [','] false "\",\"".toList, .rule .ws,
      .rule .Value]) fr) c l r → (hasFatal l = true → r.panics ∨ ∃ v1 v2 v3 c' fr',
        r = .ok (.list [v1, v2, v3, .nil]) c' fr') ∧
      ∀ {v c' fr'}, r = .ok v c' fr' → ∃ v1 v2 v3 v4, v = .list [v1, v2, v3, v4] := by
    intro fr c l r h
    have ws : ∀ {e fr c l r}, xE false e = true → Big E ctx (.expr e fr) c l r → hasFatal l = true → r.panics :=
      fun he h hl => (Big.dead (vl := false) nofun h hc hl).1 he
    cases h with
    | seq h =>
    cases h with
    | seq_panic => exact ⟨fun _ => .inl trivial, nofun⟩
    | seq_fail h => exact ⟨fun hl => (ws (by decide) h hl).elim, nofun⟩
    | seq_cons g1 h =>
    have n1 : ¬ hasFatal _ = true := fun hl => ws (by decide) g1 hl
    cases h with
    | seq_panic => exact ⟨fun _ => .inl trivial, nofun⟩
    | seq_fail h =>
      refine ⟨fun hl => ?_, nofun⟩
      rw [hasFatal_tick, hasFatal_append, Bool.or_eq_true] at hl
      exact (ws (by decide) h (hl.resolve_left n1)).elim
    | seq_cons g2 h =>
    have n2 : ¬ hasFatal _ = true := fun hl => ws (by decide) g2 hl
    cases h with
    | seq_panic => exact ⟨fun _ => .inl trivial, nofun⟩
    | seq_fail h =>
      refine ⟨fun hl => ?_, nofun⟩
      rw [hasFatal_tick, hasFatal_append, hasFatal_append, Bool.or_eq_true, Bool.or_eq_true] at hl
      exact (ws (by decide) h ((hl.resolve_left n1).resolve_left n2)).elim
    | seq_cons g3 h =>
    have n3 : ¬ hasFatal _ = true := fun hl => ws (by decide) g3 hl
    have val := fun {r} {l} {c} {fr} (h : Big E ctx (.expr (.rule .Value) fr) c l r) hl =>
      (Big.dead (vl := false) nofun h hc hl).2.1 rfl
    cases h with
    | seq_panic => exact ⟨fun _ => .inl trivial, nofun⟩
    | seq_fail h =>
      refine ⟨fun hl => ?_, nofun⟩
      rw [hasFatal_tick, hasFatal_append, hasFatal_append, hasFatal_append, Bool.or_eq_true, Bool.or_eq_true,
        Bool.or_eq_true] at hl
      exact (val h (((hl.resolve_left n1).resolve_left n2).resolve_left n3)).elim
    | seq_cons g4 h =>
    cases h with
    | seq_nil =>
    refine ⟨fun hl => ?_, ?_⟩
    · rw [hasFatal_tick, hasFatal_append, hasFatal_append, hasFatal_append, hasFatal_append, Bool.or_eq_true,
        Bool.or_eq_true, Bool.or_eq_true, Bool.or_eq_true] at hl
      have hl := ((hl.resolve_left n1).resolve_left n2).resolve_left n3
      have hv : _ = PV.nil := val g4 (hl.resolve_right (by simp [hasFatal, errorsOf]))
      subst hv
      exact .inr ⟨_, _, _, _, _, rfl⟩
    · rintro _ _ _ ⟨⟩
      exact ⟨_, _, _, _, rfl⟩
  induction h with
  | @rep_next _ _ _ _ _ _ _ _ _ _ l2 _ h1 h2 ih1 ih2 =>
    rintro e fr one acc ⟨⟩ hl rfl
    rw [hasFatal_append, Bool.or_eq_true] at hl
    obtain ⟨k1, k2⟩ := elem h1
    obtain ⟨v1, v2, v3, v4, rfl⟩ := k2 rfl
    have cons : ∀ vs, mapPieces 3 PV.asVal (.list [v1, v2, v3, v4] :: vs) =
        (do let a ← PV.asVal v4; let as ← mapPieces 3 PV.asVal vs; return a :: as) := fun _ => rfl
    have split : ∀ {vs}, (v4 = .nil ∨ ∃ q, mapPieces 3 PV.asVal vs = .error q) →
        ∃ q, mapPieces 3 PV.asVal (.list [v1, v2, v3, v4] :: vs) = .error q := by
      rintro vs (rfl | ⟨q, hq⟩)
      · exact ⟨_, rfl⟩
      · rw [cons, hq]
        rcases PV.asVal v4 with e | a <;> exact ⟨_, rfl⟩
    by_cases hl2 : hasFatal l2 = true
    · rcases ih2 hc elem rfl hl2 rfl with h | ⟨vs, c', fr', rfl, hq⟩
      · exact .inl h
      · exact .inr ⟨_ :: vs, c', fr', by rw [List.append_assoc]; rfl, split (.inr hq)⟩
    · rcases k1 (hl.resolve_right hl2) with h | ⟨_, _, _, _, _, h⟩
      · exact h.elim
      · cases h
        rcases rep_list h2 rfl (by simp) with h | ⟨vs, c', fr', rfl⟩
        · exact .inl h
        · exact .inr ⟨_ :: vs, c', fr', by rw [List.append_assoc]; rfl, split (.inl rfl)⟩
  | rep_stop h1 hn _ => 
    rintro e fr one acc ⟨⟩ hl rfl
    rcases (elem h1).1 hl with h | ⟨_, _, _, _, _, h⟩
    · exact h.elim
    · cases h
  | rep_fail h1 _ =>
    rintro e fr one acc ⟨⟩ hl rfl
    rcases (elem h1).1 hl with h | ⟨_, _, _, _, _, h⟩
    · exact h.elim
    · cases h
  | rep_panic => intros; exact .inl trivial
  | _ => rintro e fr one acc hj; cases hj

/-- A list of values after a fatal error. -/
theorem values_dead {ctx : Ctx} (hc : (ctx.recov.all fun x => hE x.2) = true) {fr : VFrame} {c : Cursor}
    {l : List Ev} {r : Res} (h : Big E ctx (.expr (.rule .ValueList) fr) c l r) (hl : hasFatal l = true) :
    r.nothing := by
  have ws : ∀ {e fr c l r}, xE false e = true → Big E ctx (.expr e fr) c l r → hasFatal l = true → r.panics :=
    fun he h hl => (Big.dead (vl := false) nofun h hc hl).1 he
  have val : ∀ {fr c l r}, Big E ctx (.expr (.rule .Value) fr) c l r → hasFatal l = true → r.nothing :=
    fun h hl => (Big.dead (vl := false) nofun h hc hl).2.1 rfl
  -- the list itself: after a fatal error it fails (at a parenthesis), panics, or is no list of values
  have list : ∀ {fr l r}, Big E ctx (.expr (.seq [.lit ['('] false "\"(\"".toList,
          .rule .ws,
          .label .first (.rule .Value),
          .label .rest (.star (.seq [.rule .ws,
                .lit [','] false "\",\"".toList,
                .rule .ws,
                .rule .Value])),
          .rule .ws,
          .lit [')'] false "\")\"".toList]) fr) c l r → hasFatal l = true →
      r.panics ∨ (AtParen c ∧ ∃ c', r = .fail c') ∨ ∃ v c' fr', r = .ok v c' fr' ∧
        ∀ text p, (∃ q, runAct E .onValueList2 fr' text p = .error q) ∨
          ∃ e, runAct E .onValueList2 fr' text p = .ok (.nil, some e) := by
    intro fr l r h hl
    cases h with
    | seq h =>
    rw [hasFatal_tick] at hl
    cases h with
    | seq_panic => exact .inl trivial
    | seq_fail h => exact (ws (by decide) h hl).elim
    | seq_cons g1 h =>
    have hp : AtParen c := by
      cases g1 with
      | lit_ok g =>
        unfold litLoop at g
        split at g
        · cases g
        · rename_i s t hr
          refine ⟨s, t, hr, ?_⟩
          by_contra hs
          rw [if_neg (by simpa using hs)] at g
          cases g
    by_cases hnf : ∀ v c' fr', r ≠ .ok v c' fr'
    · cases r with
      | ok => exact absurd rfl (hnf _ _ _)
      | panic => exact .inl trivial
      | fail => exact .inr (.inl ⟨hp, _, rfl⟩)
    refine .inr (.inr ?_)
    cases h with
    | seq_panic => exact absurd (by simp) hnf
    | seq_fail => exact absurd (by simp) hnf
    | seq_cons g2 h =>
    cases h with
    | seq_panic => exact absurd (by simp) hnf
    | seq_fail => exact absurd (by simp) hnf
    | seq_cons g3 h =>
    cases h with
    | seq_panic => exact absurd (by simp) hnf
    | seq_fail => exact absurd (by simp) hnf
    | seq_cons g4 h =>
    cases h with
    | seq_panic => exact absurd (by simp) hnf
    | seq_fail => exact absurd (by simp) hnf
    | seq_cons g5 h =>
    cases h with
    | seq_panic => exact absurd (by simp) hnf
    | seq_fail => exact absurd (by simp) hnf
    | seq_cons g6 h =>
    cases h with
    | seq_nil =>
    rw [hasFatal_append, hasFatal_append, hasFatal_append, hasFatal_append, hasFatal_append, hasFatal_append,
      Bool.or_eq_true, Bool.or_eq_true, Bool.or_eq_true, Bool.or_eq_true, Bool.or_eq_true, Bool.or_eq_true] at hl
    have hl := (hl.resolve_left fun h => ws (by decide) g1 h).resolve_left fun h => ws (by decide) g2 h
    have n5 := fun h => ws (by decide) g5 h
    have n6 := fun h => ws (by decide) g6 h
    refine ⟨_, _, _, rfl, fun text p => ?_⟩
    cases g3 with
    | label_stop _ hs => exact hs.elim
    | label_ok g3 =>
    cases g4 with
    | label_stop _ hs => exact hs.elim
    | label_ok g4 =>
    cases g4 with
    | star g4 =>
    cases g5 with
    | rule_stop _ hs => exact hs.elim
    | rule_ok g5 =>
    cases g6 with
    | lit_ok g6 =>
    have look : ∀ (v w : PV), runAct E .onValueList2 ((.rest, w) :: (.first, v) :: fr) text p = (do
        let first ← v.asVal
        let rest ← w.toAny
        if rest.length = 0 then return (.nil, some ⟨.singleParen, none⟩)
        let more ← mapPieces 3 PV.asVal rest
        return (.vals (first :: more), none)) := fun _ _ => rfl
    rcases hl with hl | hl | hl | hl | hl
    · have hv : _ = PV.nil := val g3 hl
      subst hv
      exact .inl ⟨.typeAssertion, rfl⟩
    · rcases rest_dead g4 hc rfl hl rfl with h | ⟨vs, c', fr', h, q, hq⟩
      · exact h.elim
      · cases h
        left
        refine Exists.imp (fun q hq => (look _ _).trans hq) ?_
        simp only [PV.toAny, bind, Except.bind, pure, Except.pure, List.nil_append, hq]
        split
        · exact ⟨_, rfl⟩
        · split
          · rename_i h0
            rw [List.length_eq_zero_iff] at h0
            subst h0
            cases hq
          · exact ⟨_, rfl⟩
    · exact (n5 hl).elim
    · exact (n6 hl).elim
    · cases hl
  have main : ∀ {l r}, Big E ctx (.expr (grammar .ValueList) []) c l r → hasFatal l = true → r.nothing := by
    intro l r h hl
    cases h with
    | choice h =>
    rw [hasFatal_tick] at hl
    have second : ∀ {l r}, Big E ctx (.choice [] [.action .onValueList17 (.label .value (.rule .Value))]) c l r →
        hasFatal l = true → r.panics :=
      fun h hl => (Big.dead (vl := false) nofun h hc hl).1 (by decide)
    cases h with
    | choice_panic => trivial
    | choice_ok h =>
      cases h with
      | action_ok h hr =>
        rcases list h hl with h | ⟨_, _, h⟩ | ⟨v, c', fr', h, hk⟩
        · exact h.elim
        · cases h
        · cases h
          rcases hk (textOf c _) c.loc with ⟨q, hq⟩ | ⟨e, he⟩
          · rw [hr] at hq; cases hq
          · rw [hr] at he; cases he
      | @action_err _ _ _ _ _ l0 _ _ _ _ er h hr =>
        by_cases hl0 : hasFatal l0 = true
        · rcases list h hl0 with h | ⟨_, _, h⟩ | ⟨v, c', fr', h, hk⟩
          · exact h.elim
          · cases h
          · cases h
            rcases hk (textOf c _) c.loc with ⟨q, hq⟩ | ⟨e, he⟩
            · rw [hr] at hq; cases hq
            · rw [hr] at he; cases he; rfl
        · rw [hasFatal_tick, hasFatal_append, hasFatal_err, Bool.or_eq_true] at hl
          exact (fatal_nil hr (hl.resolve_left hl0)).2
      | action_stop _ hs => exact hs.elim
    | @choice_next _ _ _ _ _ _ _ l2 _ h1 h2 =>
      rw [h1.fail_back] at h2
      rw [hasFatal_append, Bool.or_eq_true] at hl
      rcases hl with hl | hl
      · cases h1 with
        | action_stop h _ =>
        rcases list h hl with h | ⟨hp, _, h⟩ | ⟨v, c', fr', h, hk⟩
        · exact h.elim
        · have at_ : ∀ {l r}, Big E ctx (.expr (.rule .Value) []) c l r → hasFatal l = true ∨ r.panics :=
            fun h => value_at_paren h hp
          have lab : ∀ {l r}, Big E ctx (.expr (.label .value (.rule .Value)) []) c l r →
              hasFatal l = true ∨ r.panics := by
            intro l r h
            cases h with
            | label_ok h => exact (at_ h).imp id fun h => False.elim h
            | label_stop h _ => rw [hasFatal_tick]; exact at_ h
          have act : ∀ {l r}, Big E ctx (.expr (.action .onValueList17 (.label .value (.rule .Value))) []) c l r →
              hasFatal l = true ∨ r.panics := by
            intro l r h
            cases h with
            | action_ok h => exact (lab h).imp id fun h => False.elim h
            | action_err h =>
              rw [hasFatal_tick, hasFatal_append, Bool.or_eq_true]
              exact (lab h).imp .inl fun h => False.elim h
            | action_panic h => exact .inr trivial
            | action_stop h _ => rw [hasFatal_tick]; exact lab h
          have dead : hasFatal l2 = true ∨ r.panics := by
            cases h2 with
            | choice_ok h => exact (act h).imp id fun h => False.elim h
            | choice_panic h => exact .inr trivial
            | choice_next h h' =>
              cases h'
              rw [List.append_nil]
              exact (act h).imp id fun h => False.elim h
          exact dead.elim (fun h => (second h2 h).nothing) fun h => h.nothing
        · cases h
      · exact (second h2 hl).nothing
  cases h with
  | rule_ok h =>
    have := main h (by rw [hasFatal_tick] at hl; exact hl)
    exact this
  | rule_stop h hs => exact main h (by rw [hasFatal_tick] at hl; exact hl)

/-- The whole parser: a panic exactly after a fatal error. -/
theorem start_panics_iff {l : List Ev} {r : Res} {c : Cursor} (h : Big E ⟨false, []⟩ (.expr (grammar .Start) []) c l r) :
    r.panics ↔ hasFatal l = true := by
  constructor
  · intro hp
    by_contra hl
    have := h.mild (by simpa using hl) (wt_grammar .Start) rfl
    cases r with
    | panic => exact this
    | ok => exact hp
    | fail => exact hp
  · intro hl
    exact (Big.dead (vl := true) (fun _ {_ _ _ _ _} hc h hl => values_dead hc h hl) h rfl hl).1 (xR_grammar rfl)

end Aql
