import Verif.Proofs.Shapes
import Verif.Spec.Fatal
/-!
As long as every recorded error leaves a value behind, values are typed and nothing panics
(`Big.shapes` without the errors that do no harm).
-/

namespace Aql
open Spec

variable {E : Env}

theorem hasFatal_append (l l' : List Ev) : hasFatal (l ++ l') = (hasFatal l || hasFatal l') := by
  unfold hasFatal
  rw [errorsOf_append, List.any_append]

theorem hasFatal_tick (l : List Ev) : hasFatal (.tick :: l) = hasFatal l := rfl

theorem hasFatal_err (p : Loc) (e : RecErr) : hasFatal [.err p e] = fatalKind e.kind := by
  simp [hasFatal, errorsOf]

theorem hasFatal_mark (a b : Bool) (p : Loc) (w : Str) : hasFatal [.mark a b p w] = false := rfl

theorem hasFatal_encErr (c : Cursor) : hasFatal (encErr c) = false := by
  unfold encErr
  split <;> rfl

theorem hasFatal_litLoop {ic : Bool} {s : Str} {c : Cursor} {l : List Ev} {o : Option Cursor}
    (h : litLoop E ic s c = (l, o)) : hasFatal l = false := by
  induction s generalizing c l o with
  | nil => cases h; rfl
  | cons w ws ih =>
    unfold litLoop at h
    split at h
    · cases h; rfl
    · rename_i s u hr
      by_cases hw : (if ic = true then goLower E s.rune else s.rune) = w
      · rw [if_pos hw] at h
        rcases h2 : litLoop E ic ws c.next with ⟨l2, o2⟩
        rw [h2] at h
        cases h
        rw [hasFatal_append, hasFatal_encErr, ih h2]
        rfl
      · rw [if_neg hw] at h
        cases h; rfl

/-- An action on a typed frame does not panic, and its value is typed unless it reports a
fatal error. -/
theorem runAct_mild {a : Act} {fr : VFrame} {text : Str} {p : Loc} (ht : text ≠ [])
    (h : ∀ x ∈ areq a, (fr.get x.1).Has x.2) :
    (∃ v, runAct E a fr text p = .ok (v, none) ∧ v.Has (ash a)) ∨
      ∃ v e, runAct E a fr text p = .ok (v, some e) ∧ (fatalKind e.kind = false → v.Has (ash a)) := by
  have tok : ∀ (r : Option Val) (kind : ErrKind) (k : Nat) (s : Sh), (∀ x, r = some x → (PV.val x).Has s) →
      fatalKind kind = true →
      (∃ v, tokResult r kind k = .ok (v, none) ∧ v.Has s) ∨
        ∃ v e, tokResult r kind k = .ok (v, some e) ∧ (fatalKind e.kind = false → v.Has s) := by
    intro r kind k s hs hk
    cases r with
    | none => exact .inr ⟨_, _, rfl, fun h => by rw [hk] at h; cases h⟩
    | some x => exact .inl ⟨_, rfl, hs x rfl⟩
  cases a
  case onStart1 => exact .inl ⟨_, rfl, h _ (List.mem_cons_self ..)⟩
  case onQuery1 => exact .inl ⟨_, rfl, h _ (List.mem_cons_self ..)⟩
  case onComparison2 => exact .inl ⟨_, rfl, h _ (List.mem_cons_self ..)⟩
  case onOrClause2 =>
    obtain ⟨n, h1⟩ := h (.lhs, .node) (by simp [areq])
    obtain ⟨m, h2⟩ := h (.rhs, .node) (by simp [areq])
    exact .inl ⟨.node (.or n m), by simp only [runAct]; rw [h1, h2]; rfl, _, rfl⟩
  case onAndClause2 =>
    obtain ⟨n, h1⟩ := h (.lhs, .node) (by simp [areq])
    obtain ⟨m, h2⟩ := h (.rhs, .node) (by simp [areq])
    exact .inl ⟨.node (.and n m), by simp only [runAct]; rw [h1, h2]; rfl, _, rfl⟩
  case onNotClause2 =>
    obtain ⟨n, h1⟩ := h (.cmp, .node) (by simp [areq])
    exact .inl ⟨.node (.not n), by simp only [runAct]; rw [h1]; rfl, _, rfl⟩
  case onComparison10 =>
    obtain ⟨o, h1⟩ := h (.operation, .op) (by simp [areq])
    obtain ⟨f, h2⟩ := h (.field, .fields) (by simp [areq])
    exact .inl ⟨.node (.expr o f [] (getpos p text)), by simp only [runAct]; rw [h1, h2]; rfl, _, rfl⟩
  case onComparison19 =>
    have h1 := h (.operation, .opt .op) (by simp [areq])
    obtain ⟨f, h2⟩ := h (.field, .fields) (by simp [areq])
    obtain ⟨vs, h3⟩ := h (.values, .vals) (by simp [areq])
    rcases h1 with h1 | ⟨o, h1⟩
    · exact .inl ⟨.node (.expr .EQ f vs (getpos p text)), by simp only [runAct]; rw [h1, h2, h3]; rfl, _, rfl⟩
    · exact .inl ⟨.node (.expr o f vs (getpos p text)), by simp only [runAct]; rw [h1, h2, h3]; rfl, _, rfl⟩
  case onField1 =>
    obtain ⟨x, xs, h1, ⟨s, rfl⟩, y, ys, h2, ⟨vs, rfl, h3⟩, h4⟩ :=
      h (.pieces, .consT .str (.consT (.list (.consT .any (.consT .str .nilT))) .nilT)) (by simp [areq])
    cases h2
    cases h4
    obtain ⟨as, has⟩ := mapPieces_ok (i := 1) (conv := PV.asString) (vs := vs) (by
      intro v hv
      obtain ⟨a, as, rfl, -, b, bs, h5, ⟨s, rfl⟩, h6⟩ := h3 v hv
      cases h5
      exact ⟨_, .str s, s, rfl, rfl, rfl⟩)
    left
    refine ⟨.fields (removeStars (s :: as)), ?_, _, rfl⟩
    simp only [runAct]
    change (fr.get .pieces) = _ at h1
    rw [h1]
    simp only [PV.toAny, PV.index, PV.asString, bind, Except.bind, pure, Except.pure, List.length_cons,
      List.getElem?_cons_zero, List.getElem?_cons_succ, has]
    rfl
  case onUnquotedFieldPiece1 => exact .inl ⟨_, rfl, _, rfl⟩
  case onQuotedFieldPiece1 =>
    obtain ⟨s, q, h1⟩ := h (.qv, .strval) (by simp [areq])
    exact .inl ⟨.str s, by simp only [runAct]; rw [h1]; rfl, _, rfl⟩
  case onStar1 => exact .inl ⟨_, rfl, _, rfl⟩
  case onValueList2 =>
    obtain ⟨x, h1⟩ := h (.first, .val) (by simp [areq])
    obtain ⟨vs, h2, h3⟩ := h (.rest, .list (.consT .any (.consT .any (.consT .any (.consT .val .nilT)))))
      (by simp [areq])
    obtain ⟨as, has⟩ := mapPieces_ok (i := 3) (conv := PV.asVal) (vs := vs) (by
      intro v hv
      obtain ⟨a, as, rfl, -, b, bs, h5, -, c, cs, h6, -, d, ds, h7, ⟨y, rfl⟩, h8⟩ := h3 v hv
      cases h5
      cases h6
      cases h7
      exact ⟨_, .val y, y, rfl, rfl, rfl⟩)
    simp only [runAct]
    change fr.get .first = _ at h1
    change fr.get .rest = _ at h2
    rw [h1, h2]
    simp only [PV.toAny, PV.asVal, bind, Except.bind, pure, Except.pure, has]
    by_cases hl : vs.length = 0
    · rw [if_pos hl]; exact .inr ⟨_, _, rfl, nofun⟩
    · rw [if_neg hl]; exact .inl ⟨_, rfl, _, rfl⟩
  case onValueList17 =>
    obtain ⟨x, h1⟩ := h (.value, .val) (by simp [areq])
    exact .inl ⟨.vals [x], by simp only [runAct]; rw [h1]; rfl, _, rfl⟩
  case onValue2 =>
    obtain ⟨x, h1⟩ := h (.val, .val) (by simp [areq])
    exact .inl ⟨.val x, by simp only [runAct]; rw [h1]; rfl, _, rfl⟩
  case onValue8 =>
    cases text with
    | nil => exact absurd rfl ht
    | cons c t =>
      right
      by_cases hc : c = ')'
      · exact ⟨.nil, ⟨.closingParen, none⟩, by simp only [runAct, if_pos hc], nofun⟩
      · exact ⟨.nil, ⟨.unknownValue (c :: t), none⟩, by simp only [runAct, if_neg hc], nofun⟩
  case onQuotedValue2 =>
    refine tok _ _ _ _ ?_ rfl
    intro x hx
    rcases hu : unquote text with _ | s
    · rw [hu] at hx; cases hx
    · rw [hu] at hx; cases hx; exact ⟨_, _, rfl⟩
  case onRegexValue2 => exact tok _ _ _ _ (fun x _ => ⟨x, rfl⟩) rfl
  case onFloatValue1 => exact tok _ _ _ _ (fun x _ => ⟨x, rfl⟩) rfl
  case onIPValue1 => exact tok _ _ _ _ (fun x _ => ⟨x, rfl⟩) rfl
  case onTimestamp1 => exact tok _ _ _ _ (fun x _ => ⟨x, rfl⟩) rfl
  case onBoolValue1 =>
    simp only [runAct]
    split
    · exact .inl ⟨_, rfl, _, rfl⟩
    · exact .inr ⟨_, _, rfl, fun _ => ⟨_, rfl⟩⟩
  case onIntValue1 =>
    simp only [runAct]
    split
    · exact .inl ⟨_, rfl, _, rfl⟩
    · exact .inr ⟨_, _, rfl, fun _ => ⟨_, rfl⟩⟩
  case onopNoArgs1 => exact .inl ⟨_, rfl, _, rfl⟩
  case onopComp1 => exact .inl ⟨_, rfl, _, rfl⟩

/-- As long as no fatal error is recorded, values are typed and nothing panics. -/
theorem Big.mild {ctx : Ctx} {j : Job} {c : Cursor} {l : List Ev} {r : Res} (h : Big E ctx j c l r) :
    hasFatal l = false → j.wt = true → (ctx.recov.all fun x => wtE x.2 && (binds x.2).isEmpty) = true →
      j.Fine r := by
  have act : ∀ {ctx : Ctx} {a : Act} {e : PExpr} {fr : VFrame} {c : Cursor} {l : List Ev} {v : PV}
      {c' : Cursor} {fr' : VFrame}, Big E ctx (.expr e fr) c l (.ok v c' fr') →
      (Job.expr e fr).Fine (.ok v c' fr') → wtE (.action a e) = true →
      ((∃ v', runAct E a fr' (textOf c c') c.loc = .ok (v', none) ∧ v'.Has (ash a)) ∨
        ∃ v' er, runAct E a fr' (textOf c c') c.loc = .ok (v', some er) ∧
          (fatalKind er.kind = false → v'.Has (ash a))) := by
    intro ctx a e fr c l v c' fr' h hf hw
    rw [wtE, Bool.and_eq_true, Bool.and_eq_true] at hw
    obtain ⟨t, ht⟩ := h.ok_adv
    refine runAct_mild ?_ ?_
    · rw [ht.textOf]
      intro h0
      rw [List.map_eq_nil_iff] at h0
      subst h0
      have := h.consumes _ _ _ rfl (by simpa [Job.nul] using hw.1.1)
      rw [ht.rest] at this
      simp at this
    · intro x hx
      obtain ⟨_, b, rfl, hb⟩ := hf
      have := List.all_eq_true.1 hw.1.2 x hx
      exact hb.get (by simpa using this)
  induction h with
  | action_ok h ha ih =>
    intro hl hj hc
    have hj' := hj
    rw [Job.wt, wtE, Bool.and_eq_true] at hj'
    have := ih hl hj'.2 hc
    rcases act h this hj with ⟨v', h1, h2⟩ | ⟨v', er, h1, h2⟩
    · rw [ha] at h1; cases h1
      exact ⟨h2, this.2⟩
    · rw [ha] at h1; cases h1
  | action_err h ha ih =>
    intro hl hj hc
    rw [hasFatal_tick, hasFatal_append, Bool.or_eq_false_iff, hasFatal_err] at hl
    have hj' := hj
    rw [Job.wt, wtE, Bool.and_eq_true] at hj'
    have := ih hl.1 hj'.2 hc
    rcases act h this hj with ⟨v', h1, h2⟩ | ⟨v', er, h1, h2⟩
    · rw [ha] at h1; cases h1
    · rw [ha] at h1; cases h1
      exact ⟨h2 hl.2, this.2⟩
  | action_panic h ha ih =>
    intro hl hj hc
    have hj' := hj
    rw [Job.wt, wtE, Bool.and_eq_true] at hj'
    rcases act h (ih hl hj'.2 hc) hj with ⟨v', h1, h2⟩ | ⟨v', er, h1, h2⟩
    · rw [ha] at h1; cases h1
    · rw [ha] at h1; cases h1
  | action_stop h hs ih =>
    intro hl hj hc
    rw [Job.wt, wtE, Bool.and_eq_true] at hj
    exact (ih hl hj.2 hc).stop hs
  | @seq _ es fr _ _ r h ih =>
    intro hl hj hc
    have := ih hl hj hc
    cases r with
    | ok v c' fr' =>
      obtain ⟨⟨vs, rfl, hv⟩, hb⟩ := this
      exact ⟨hv, hb⟩
    | fail => trivial
    | panic => exact this.elim
  | @seq_nil _ _ acc fr _ => intro _ _ _; exact ⟨⟨[], by simp, rfl⟩, [], rfl, trivial⟩
  | @seq_cons _ _ e es acc fr _ _ v _ fr' _ r h1 h2 ih1 ih2 =>
    intro hl hj hc
    rw [hasFatal_append, Bool.or_eq_false_iff] at hl
    rw [Job.wt, wtL, Bool.and_eq_true] at hj
    obtain ⟨hv, b, rfl, hb⟩ := ih1 hl.1 hj.1 hc
    have := ih2 hl.2 hj.2 hc
    cases r with
    | ok w c' fr'' =>
      obtain ⟨⟨vs, rfl, hvs⟩, b', rfl, hb'⟩ := this
      exact ⟨⟨v :: vs, by simp, v, vs, rfl, hv, hvs⟩, b' ++ b, by simp, hb'.append hb⟩
    | fail => trivial
    | panic => exact this.elim
  | seq_fail h ih => intro _ _ _; trivial
  | seq_panic h ih =>
    intro hl hj hc
    rw [Job.wt, wtL, Bool.and_eq_true] at hj
    exact ih hl hj.1 hc
  | @choice _ es fr _ _ r h ih =>
    intro hl hj hc
    have := ih hl hj hc
    cases r with
    | ok v c' fr' => exact ⟨this.1, [], by rw [this.2]; rfl, trivial⟩
    | fail => trivial
    | panic => exact this.elim
  | choice_nil => intro _ _ _; trivial
  | choice_ok h ih =>
    intro hl hj hc
    rw [Job.wt, wtL, Bool.and_eq_true] at hj
    exact ⟨inferJ_head (ih hl hj.1 hc).1, rfl⟩
  | @choice_next _ fr e es _ _ _ _ r h1 h2 ih1 ih2 =>
    intro hl hj hc
    rw [hasFatal_append, Bool.or_eq_false_iff] at hl
    rw [Job.wt, wtL, Bool.and_eq_true] at hj
    have := ih2 hl.2 hj.2 hc
    cases r with
    | ok v c' fr' =>
      refine ⟨inferJ_tail ?_ this.1, this.2⟩
      rintro rfl
      cases h2
    | fail => trivial
    | panic => exact this.elim
  | choice_panic h ih =>
    intro hl hj hc
    rw [Job.wt, wtL, Bool.and_eq_true] at hj
    exact ih hl hj.1 hc
  | @label_ok _ x e fr _ _ v _ _ h ih =>
    intro hl hj hc
    have := (ih hl hj hc).1
    exact ⟨this, [(x, v)], rfl, rfl, this, trivial⟩
  | label_stop h hs ih => intro hl hj hc; exact (ih hl hj hc).stop hs
  | @rule_ok _ x fr _ _ v _ _ h ih =>
    intro hl hj hc
    have := (ih hl (wt_grammar x) hc).1
    refine ⟨?_, [], rfl, trivial⟩
    change v.Has (rsh x)
    rcases infer_grammar x with h | h
    · rw [h]; trivial
    · rw [← h]; exact this
  | @rule_stop _ x _ _ _ _ h hs ih => intro hl hj hc; exact (ih hl (wt_grammar x) hc).stop hs
  | lit_ok h => intro _ _ _; exact ⟨trivial, [], rfl, trivial⟩
  | lit_fail h => intro _ _ _; trivial
  | cls_ok hr hm => intro _ _ _; exact ⟨trivial, [], rfl, trivial⟩
  | cls_fail h => intro _ _ _; trivial
  | any_ok hr => intro _ _ _; exact ⟨trivial, [], rfl, trivial⟩
  | any_eof hr => intro _ _ _; trivial
  | not_ok h ih => intro _ _ _; exact ⟨trivial, [], rfl, trivial⟩
  | not_fail h ih => intro _ _ _; trivial
  | not_panic h ih => intro hl hj hc; exact ih hl hj hc
  | @star _ e fr _ _ r h ih =>
    intro hl hj hc
    have := ih hl hj hc
    cases r with
    | ok v c' fr' =>
      obtain ⟨⟨vs, rfl, hv⟩, rfl⟩ := this
      exact ⟨⟨vs, rfl, hv⟩, [], rfl, trivial⟩
    | fail => trivial
    | panic => exact this.elim
  | @plus _ e fr _ _ r h ih =>
    intro hl hj hc
    have := ih hl hj hc
    cases r with
    | ok v c' fr' =>
      obtain ⟨⟨vs, rfl, hv⟩, rfl⟩ := this
      exact ⟨⟨vs, rfl, hv⟩, [], rfl, trivial⟩
    | fail => trivial
    | panic => exact this.elim
  | @rep_next _ fr e _ acc _ _ v _ _ _ r h1 h2 ih1 ih2 =>
    intro hl hj hc
    rw [hasFatal_append, Bool.or_eq_false_iff] at hl
    have hv := (ih1 hl.1 hj hc).1
    have := ih2 hl.2 hj hc
    cases r with
    | ok w c' fr' =>
      obtain ⟨⟨vs, rfl, hvs⟩, rfl⟩ := this
      refine ⟨⟨v :: vs, by simp, ?_⟩, rfl⟩
      intro x hx
      rcases List.mem_cons.1 hx with rfl | hx
      · exact hv
      · exact hvs x hx
    | fail => trivial
    | panic => exact this.elim
  | rep_stop h hcond ih => intro _ _ _; exact ⟨⟨[], by simp, by simp⟩, rfl⟩
  | rep_fail h ih => intro _ _ _; trivial
  | rep_panic h ih => intro hl hj hc; exact ih hl hj hc
  | opt_ok h ih => intro hl hj hc; exact ⟨.inr (ih hl hj hc).1, [], rfl, trivial⟩
  | opt_none h ih => intro _ _ _; exact ⟨.inl rfl, [], rfl, trivial⟩
  | opt_panic h ih => intro hl hj hc; exact ih hl hj hc
  | @recover _ _ _ _ _ _ _ r h ih =>
    intro hl hj hc
    rw [Job.wt, wtE, Bool.and_eq_true] at hj
    have := ih hl hj.1 (by rw [List.all_cons, Bool.and_eq_true]; exact ⟨hj.2, hc⟩)
    cases r with
    | ok v c' fr' => exact this
    | fail => trivial
    | panic => exact this.elim
  | @throw _ _ _ _ _ r h ih =>
    intro hl hj hc
    have := ih hl hc hc
    cases r with
    | ok v c' fr' => exact ⟨trivial, [], this, trivial⟩
    | fail => trivial
    | panic => exact this.elim
  | throw_nil => intro _ _ _; trivial
  | @throw_skip _ _ _ _ _ _ _ _ r hne h ih =>
    intro hl hj hc
    rw [Job.wt, List.all_cons, Bool.and_eq_true] at hj
    have := ih hl hj.2 hc
    cases r with
    | ok v c' fr' => exact this
    | fail => trivial
    | panic => exact this.elim
  | @throw_ok _ _ _ _ _ _ _ _ _ _ h ih =>
    intro hl hj hc
    rw [Job.wt, List.all_cons, Bool.and_eq_true, Bool.and_eq_true] at hj
    obtain ⟨_, b, rfl, hb⟩ := ih hl hj.1.1 hc
    have h0 := List.isEmpty_iff.1 hj.1.2
    rw [h0] at hb
    cases b with
    | nil => rfl
    | cons => exact hb.elim
  | @throw_next _ _ _ _ _ _ _ _ _ r h1 h2 ih1 ih2 =>
    intro hl hj hc
    rw [hasFatal_append, Bool.or_eq_false_iff] at hl
    rw [Job.wt, List.all_cons, Bool.and_eq_true] at hj
    have := ih2 hl.2 hj.2 hc
    cases r with
    | ok v c' fr' => exact this
    | fail => trivial
    | panic => exact this.elim
  | throw_panic h ih =>
    intro hl hj hc
    rw [Job.wt, List.all_cons, Bool.and_eq_true, Bool.and_eq_true] at hj
    exact ih hl hj.1.1 hc
  | state => intro _ _ _; exact ⟨trivial, [], rfl, trivial⟩

end Aql
