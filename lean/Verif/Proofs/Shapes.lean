import Verif.Proofs.Parser
/-!
Two more facts about every run of the parser. Errors recorded by actions cover text that was read
(`Big.spans`). Values have the dynamic types that the actions assert, as long as no error was recorded,
so no type assertion or slice access panics before an error is recorded (`Big.shapes`).
-/

namespace Aql

variable {E : Env}

/-! ### Text covered by errors -/

mutual
/-- Every action reads something. -/
def readsE : PExpr → Bool
  | .action _ e => !nul e && readsE e
  | .seq es => readsL es
  | .choice es => readsL es
  | .label _ e => readsE e
  | .rule _ => true
  | .lit .. => true
  | .cls .. => true
  | .any => true
  | .not e => readsE e
  | .star e => readsE e
  | .plus e => readsE e
  | .opt e => readsE e
  | .recover _ e h => readsE e && readsE h
  | .throw _ => true
  | .state _ => true
def readsL : List PExpr → Bool
  | [] => true
  | e :: es => readsE e && readsL es
end

theorem reads_grammar (r : Rule) : readsE (grammar r) = true := by
  cases r <;> decide

def Job.reads : Job → Bool
  | .expr e _ => readsE e
  | .seq _ es _ _ => readsL es
  | .choice _ es => readsL es
  | .rep _ e _ _ => readsE e
  | .throw _ _ rs => rs.all fun x => readsE x.2

/-- An error with this record may cover the symbols `u`. -/
def RecErr.Covers (e : RecErr) (u : List Sym) : Prop :=
  (∀ k, e.toklen = some k → k = u.length) ∧
    (e.toklen = none ∧ (e.kind = .untermString ∨ e.kind = .untermRegex) ∨ u ≠ []) ∧
    (∀ p, e.kind ≠ .panic p) ∧ ∀ ws, e.kind ≠ .noMatch ws

/-- An error event covers symbols read from a cursor reached from `c`. -/
def Ev.Spans (c : Cursor) : Ev → Prop
  | .err p e => ∃ t c' u c'', Adv c t c' ∧ c'.loc = p ∧ Adv c' u c'' ∧ e.Covers u
  | _ => True

theorem Ev.Spans.after {c c' : Cursor} {t : List Sym} {ev : Ev} (h : Adv c t c') (hp : ev.Spans c') :
    ev.Spans c := by
  cases ev with
  | tick => trivial
  | mark a b p w => trivial
  | err p e =>
    obtain ⟨t', d, u, d', h1, h2, h3, h4⟩ := hp
    exact ⟨_, d, u, d', h.trans h1, h2, h3, h4⟩

theorem encErr_spans {c : Cursor} {ev : Ev} (h : ev ∈ encErr c) : ev.Spans c := by
  unfold encErr at h
  split at h
  · rename_i b u hr
    rw [List.mem_singleton.1 h]
    exact ⟨[], c, [.bad b], c.next, .refl c, rfl, .one hr, by simp [RecErr.Covers]⟩
  · cases h

theorem spans_tick {c : Cursor} {l : List Ev} (h : ∀ ev ∈ l, ev.Spans c) :
    ∀ ev ∈ Ev.tick :: l, ev.Spans c := by
  intro ev hev
  rcases List.mem_cons.1 hev with rfl | hev
  · trivial
  · exact h ev hev

theorem spans_append {c : Cursor} {l l' : List Ev} (h : ∀ ev ∈ l, ev.Spans c)
    (h' : ∀ ev ∈ l', ev.Spans c) : ∀ ev ∈ l ++ l', ev.Spans c := by
  intro ev hev
  rcases List.mem_append.1 hev with hev | hev
  · exact h ev hev
  · exact h' ev hev

theorem spans_after {c c' : Cursor} {t : List Sym} {l : List Ev} (ha : Adv c t c')
    (h : ∀ ev ∈ l, ev.Spans c') : ∀ ev ∈ l, ev.Spans c := fun ev hev => (h ev hev).after ha

theorem spans_mark {c : Cursor} {b b' : Bool} {p : Loc} {w : Str} :
    ∀ ev ∈ [Ev.mark b b' p w], ev.Spans c := by
  intro ev hev
  rw [List.mem_singleton.1 hev]; trivial

theorem litLoop_spans {ic : Bool} {s : Str} {c : Cursor} {l : List Ev} {o : Option Cursor}
    (h : litLoop E ic s c = (l, o)) : ∀ ev ∈ l, ev.Spans c := by
  induction s generalizing c l o with
  | nil => cases h; simp
  | cons w ws ih =>
    unfold litLoop at h
    split at h
    · cases h; simp
    · rename_i s u hr
      by_cases hw : (if ic = true then goLower E s.rune else s.rune) = w
      · rw [if_pos hw] at h
        rcases h2 : litLoop E ic ws c.next with ⟨l2, o2⟩
        rw [h2] at h
        cases h
        exact spans_append (spans_after (.one hr) fun ev h => encErr_spans h) (spans_after (.one hr) (ih h2))
      · rw [if_neg hw] at h
        cases h; simp

/-- The token length that an action reports is that of its text. -/
theorem runAct_toklen {a : Act} {fr : VFrame} {text : Str} {p : Loc} {v : PV} {e : RecErr} {k : Nat}
    (h : runAct E a fr text p = .ok (v, some e)) (hk : e.toklen = some k) : k = text.length := by
  have tok : ∀ {r : Option Val} {kind : ErrKind}, tokResult r kind text.length = .ok (v, some e) →
      k = text.length := by
    intro r kind h
    unfold tokResult at h
    split at h
    · cases h
    · cases h; cases hk; rfl
  cases a
  case onQuotedValue2 => exact tok h
  case onRegexValue2 => exact tok h
  case onFloatValue1 => exact tok h
  case onIPValue1 => exact tok h
  case onTimestamp1 => exact tok h
  case onStart1 => cases h
  case onQuery1 => cases h
  case onComparison2 => cases h
  case onUnquotedFieldPiece1 => cases h
  case onStar1 => cases h
  case onopNoArgs1 => cases h
  case onopComp1 => cases h
  case onValue8 =>
    simp only [runAct] at h
    split at h
    · cases h
    · split at h <;> cases h <;> cases hk
  case onBoolValue1 =>
    simp only [runAct] at h
    split at h <;> cases h
    cases hk
  case onIntValue1 =>
    simp only [runAct] at h
    split at h <;> cases h
    cases hk
  all_goals
    simp only [runAct, bind, Except.bind, pure, Except.pure] at h
    repeat' split at h
    all_goals first
      | cases h; done
      | (cases h; cases hk; done)

/-- No action reports a panic or a failure as its error. -/
theorem runAct_kind {a : Act} {fr : VFrame} {text : Str} {p : Loc} {v : PV} {e : RecErr}
    (h : runAct E a fr text p = .ok (v, some e)) : (∀ q, e.kind ≠ .panic q) ∧ ∀ ws, e.kind ≠ .noMatch ws := by
  have tok : ∀ {r : Option Val} {kind : ErrKind}, tokResult r kind text.length = .ok (v, some e) →
      e.kind = kind := by
    intro r kind h
    unfold tokResult at h
    split at h <;> cases h
    rfl
  cases a
  case onQuotedValue2 => rw [tok h]; simp
  case onRegexValue2 => rw [tok h]; simp
  case onFloatValue1 => rw [tok h]; simp
  case onIPValue1 => rw [tok h]; simp
  case onTimestamp1 => rw [tok h]; simp
  case onStart1 => cases h
  case onQuery1 => cases h
  case onComparison2 => cases h
  case onUnquotedFieldPiece1 => cases h
  case onStar1 => cases h
  case onopNoArgs1 => cases h
  case onopComp1 => cases h
  case onValue8 =>
    simp only [runAct] at h
    split at h
    · cases h
    · split at h <;> cases h <;> simp
  case onBoolValue1 =>
    simp only [runAct] at h
    split at h <;> cases h
    simp
  case onIntValue1 =>
    simp only [runAct] at h
    split at h <;> cases h
    simp
  all_goals
    simp only [runAct, bind, Except.bind, pure, Except.pure] at h
    repeat' split at h
    all_goals first
      | cases h; done
      | (cases h; simp; done)

/-- Every recorded error covers text of the input. -/
theorem Big.spans {ctx : Ctx} {j : Job} {c : Cursor} {l : List Ev} {r : Res} (h : Big E ctx j c l r) :
    j.reads = true → (ctx.recov.all fun x => readsE x.2) = true → ∀ ev ∈ l, ev.Spans c := by
  induction h with
  | action_ok h ha ih =>
    intro hj hc
    rw [Job.reads, readsE, Bool.and_eq_true] at hj
    exact spans_tick (ih hj.2 hc)
  | @action_err _ a e _ c _ _ c' _ _ er h ha ih =>
    intro hj hc
    rw [Job.reads, readsE, Bool.and_eq_true] at hj
    refine spans_tick (spans_append (ih hj.2 hc) ?_)
    intro ev hev
    rw [List.mem_singleton.1 hev]
    obtain ⟨t, ht⟩ := h.ok_adv
    refine ⟨[], c, t, c', .refl c, rfl, ht, ?_, .inr ?_, runAct_kind ha⟩
    · intro k hk
      rw [runAct_toklen ha hk, ht.textOf, List.length_map]
    · rintro rfl
      have := h.consumes _ _ _ rfl (by simpa [Job.nul] using hj.1)
      rw [ht.rest] at this
      simp at this
  | action_panic h ha ih =>
    intro hj hc
    rw [Job.reads, readsE, Bool.and_eq_true] at hj
    exact spans_tick (ih hj.2 hc)
  | action_stop h hs ih =>
    intro hj hc
    rw [Job.reads, readsE, Bool.and_eq_true] at hj
    exact spans_tick (ih hj.2 hc)
  | seq h ih => intro hj hc; exact spans_tick (ih hj hc)
  | seq_nil => intro _ _; simp
  | seq_cons h1 h2 ih1 ih2 =>
    intro hj hc
    rw [Job.reads, readsL, Bool.and_eq_true] at hj
    obtain ⟨t, ht⟩ := h1.ok_adv
    exact spans_append (ih1 hj.1 hc) (spans_after ht (ih2 hj.2 hc))
  | seq_fail h ih =>
    intro hj hc
    rw [Job.reads, readsL, Bool.and_eq_true] at hj
    exact ih hj.1 hc
  | seq_panic h ih =>
    intro hj hc
    rw [Job.reads, readsL, Bool.and_eq_true] at hj
    exact ih hj.1 hc
  | choice h ih => intro hj hc; exact spans_tick (ih hj hc)
  | choice_nil => intro _ _; simp
  | choice_ok h ih =>
    intro hj hc
    rw [Job.reads, readsL, Bool.and_eq_true] at hj
    exact ih hj.1 hc
  | choice_next h1 h2 ih1 ih2 =>
    intro hj hc
    rw [Job.reads, readsL, Bool.and_eq_true] at hj
    have hb := h1.fail_back
    subst hb
    exact spans_append (ih1 hj.1 hc) (ih2 hj.2 hc)
  | choice_panic h ih =>
    intro hj hc
    rw [Job.reads, readsL, Bool.and_eq_true] at hj
    exact ih hj.1 hc
  | label_ok h ih => intro hj hc; exact spans_tick (ih hj hc)
  | label_stop h hs ih => intro hj hc; exact spans_tick (ih hj hc)
  | rule_ok h ih => intro hj hc; exact spans_tick (ih (reads_grammar _) hc)
  | rule_stop h hs ih => intro hj hc; exact spans_tick (ih (reads_grammar _) hc)
  | lit_ok h => intro _ _; exact spans_tick (spans_append (litLoop_spans h) spans_mark)
  | lit_fail h => intro _ _; exact spans_tick (spans_append (litLoop_spans h) spans_mark)
  | cls_ok hr hm =>
    intro _ _
    exact spans_tick (spans_append (spans_after (.one hr) fun ev h => encErr_spans h) spans_mark)
  | cls_fail h => intro _ _; exact spans_tick spans_mark
  | any_ok hr =>
    intro _ _
    exact spans_tick (spans_append (spans_after (.one hr) fun ev h => encErr_spans h) spans_mark)
  | any_eof hr => intro _ _; exact spans_tick spans_mark
  | not_ok h ih => intro hj hc; exact spans_tick (ih hj hc)
  | not_fail h ih => intro hj hc; exact spans_tick (ih hj hc)
  | not_panic h ih => intro hj hc; exact spans_tick (ih hj hc)
  | star h ih => intro hj hc; exact spans_tick (ih hj hc)
  | plus h ih => intro hj hc; exact spans_tick (ih hj hc)
  | rep_next h1 h2 ih1 ih2 =>
    intro hj hc
    obtain ⟨t, ht⟩ := h1.ok_adv
    exact spans_append (ih1 hj hc) (spans_after ht (ih2 hj hc))
  | rep_stop h hcond ih => intro hj hc; exact ih hj hc
  | rep_fail h ih => intro hj hc; exact ih hj hc
  | rep_panic h ih => intro hj hc; exact ih hj hc
  | opt_ok h ih => intro hj hc; exact spans_tick (ih hj hc)
  | opt_none h ih => intro hj hc; exact spans_tick (ih hj hc)
  | opt_panic h ih => intro hj hc; exact spans_tick (ih hj hc)
  | recover h ih =>
    intro hj hc
    rw [Job.reads, readsE, Bool.and_eq_true] at hj
    refine spans_tick (ih hj.1 ?_)
    simp only [List.all_cons, Bool.and_eq_true]
    exact ⟨hj.2, hc⟩
  | throw h ih => intro hj hc; exact spans_tick (ih hc hc)
  | throw_nil => intro _ _; simp
  | throw_skip hne h ih =>
    intro hj hc
    simp only [Job.reads, List.all_cons, Bool.and_eq_true] at hj
    exact ih hj.2 hc
  | throw_ok h ih =>
    intro hj hc
    simp only [Job.reads, List.all_cons, Bool.and_eq_true] at hj
    exact ih hj.1 hc
  | throw_next h1 h2 ih1 ih2 =>
    intro hj hc
    simp only [Job.reads, List.all_cons, Bool.and_eq_true] at hj
    have hb := h1.fail_back
    subst hb
    exact spans_append (ih1 hj.1 hc) (ih2 hj.2 hc)
  | throw_panic h ih =>
    intro hj hc
    simp only [Job.reads, List.all_cons, Bool.and_eq_true] at hj
    exact ih hj.1 hc
  | @state _ s _ c =>
    intro _ _
    refine spans_tick ?_
    intro ev hev
    rw [List.mem_singleton.1 hev]
    refine ⟨[], c, [], c, .refl c, rfl, .refl c, ?_, ?_, by cases s <;> simp [runState]⟩
    · intro k hk; cases s <;> cases hk
    · cases s
      · exact .inl ⟨rfl, .inl rfl⟩
      · exact .inl ⟨rfl, .inr rfl⟩

/-! ### Dynamic types -/

/-- Dynamic types of parser values. -/
inductive Sh
  | any | node | val | strval | vals | op | fields | str
  | opt (s : Sh)
  | list (s : Sh)
  | nilT
  | consT (s t : Sh)
  deriving DecidableEq

def PV.Has : Sh → PV → Prop
  | .any, _ => True
  | .node, v => ∃ n, v = .node n
  | .val, v => ∃ x, v = .val x
  | .strval, v => ∃ s p, v = .val (.str s p)
  | .vals, v => ∃ vs, v = .vals vs
  | .op, v => ∃ o, v = .op o
  | .fields, v => ∃ f, v = .fields f
  | .str, v => ∃ s, v = .str s
  | .opt s, v => v = .nil ∨ PV.Has s v
  | .list s, v => ∃ vs, v = .list vs ∧ ∀ x ∈ vs, PV.Has s x
  | .nilT, v => v = .list []
  | .consT s t, v => ∃ x xs, v = .list (x :: xs) ∧ PV.Has s x ∧ PV.Has t (.list xs)

/-- A type of the values of either. -/
def Sh.join (a b : Sh) : Sh :=
  if a = b then a
  else if (a = .val ∨ a = .strval) ∧ (b = .val ∨ b = .strval) then .val
  else .any

theorem Has.val {s : Sh} {v : PV} (h : s = .val ∨ s = .strval) (hv : v.Has s) : v.Has .val := by
  rcases h with rfl | rfl
  · exact hv
  · obtain ⟨x, p, rfl⟩ := hv; exact ⟨_, rfl⟩

theorem Has.join {a b : Sh} {v : PV} (h : v.Has a ∨ v.Has b) : v.Has (a.join b) := by
  unfold Sh.join
  by_cases h1 : a = b
  · rw [if_pos h1]; subst h1; rcases h with h | h <;> exact h
  · rw [if_neg h1]
    by_cases h2 : (a = .val ∨ a = .strval) ∧ (b = .val ∨ b = .strval)
    · rw [if_pos h2]
      rcases h with h | h
      · exact Has.val h2.1 h
      · exact Has.val h2.2 h
    · rw [if_neg h2]; trivial

/-- Types of the values of the rules. -/
def rsh : Rule → Sh
  | .Start | .Query | .OrClause | .AndClause | .NotClause | .Comparison => .node
  | .Field => .fields
  | .FieldPiece | .UnquotedFieldPiece | .QuotedFieldPiece | .Star => .str
  | .ValueList => .vals
  | .QuotedValue => .strval
  | .Value | .RegexValue | .BareValue | .BoolValue | .FloatValue | .IntValue | .IPValue | .Timestamp => .val
  | .opNoArgs | .opComp => .op
  | _ => .any

/-- Types of the values that actions return without an error. -/
def ash : Act → Sh
  | .onStart1 | .onQuery1 | .onOrClause2 | .onAndClause2 | .onNotClause2 | .onComparison2
  | .onComparison10 | .onComparison19 => .node
  | .onField1 => .fields
  | .onUnquotedFieldPiece1 | .onQuotedFieldPiece1 | .onStar1 => .str
  | .onValueList2 | .onValueList17 => .vals
  | .onQuotedValue2 => .strval
  | .onValue2 | .onValue8 | .onRegexValue2 | .onBoolValue1 | .onFloatValue1 | .onIntValue1
  | .onIPValue1 | .onTimestamp1 => .val
  | .onopNoArgs1 | .onopComp1 => .op

/-- Types of the labels that actions use. -/
def areq : Act → List (PLabel × Sh)
  | .onStart1 | .onComparison2 => [(.query, .node)]
  | .onQuery1 => [(.clause, .node)]
  | .onOrClause2 | .onAndClause2 => [(.lhs, .node), (.rhs, .node)]
  | .onNotClause2 => [(.cmp, .node)]
  | .onComparison10 => [(.operation, .op), (.field, .fields)]
  | .onComparison19 => [(.operation, .opt .op), (.field, .fields), (.values, .vals)]
  | .onField1 => [(.pieces, .consT .str (.consT (.list (.consT .any (.consT .str .nilT))) .nilT))]
  | .onQuotedFieldPiece1 => [(.qv, .strval)]
  | .onValueList2 => [(.first, .val),
      (.rest, .list (.consT .any (.consT .any (.consT .any (.consT .val .nilT)))))]
  | .onValueList17 => [(.value, .val)]
  | .onValue2 => [(.val, .val)]
  | _ => []

mutual
/-- Type of the value of an expression. -/
def infer : PExpr → Sh
  | .action a _ => ash a
  | .seq es => inferT es
  | .choice es => inferJ es
  | .label _ e => infer e
  | .rule r => rsh r
  | .star e => .list (infer e)
  | .plus e => .list (infer e)
  | .opt e => .opt (infer e)
  | .recover _ e _ => infer e
  | .lit .. => .any
  | .cls .. => .any
  | .any => .any
  | .not _ => .any
  | .throw _ => .any
  | .state _ => .any
def inferT : List PExpr → Sh
  | [] => .nilT
  | e :: es => .consT (infer e) (inferT es)
def inferJ : List PExpr → Sh
  | [] => .any
  | [e] => infer e
  | e :: es => (infer e).join (inferJ es)
end

mutual
/-- Labels that an expression sets in its frame, latest first. -/
def binds : PExpr → List (PLabel × Sh)
  | .action _ e => binds e
  | .seq es => bindsL es
  | .label x e => [(x, infer e)]
  | .recover _ e _ => binds e
  | .choice _ => []
  | .rule _ => []
  | .star _ => []
  | .plus _ => []
  | .opt _ => []
  | .lit .. => []
  | .cls .. => []
  | .any => []
  | .not _ => []
  | .throw _ => []
  | .state _ => []
def bindsL : List PExpr → List (PLabel × Sh)
  | [] => []
  | e :: es => bindsL es ++ binds e
end

mutual
/-- Every action reads something and finds its labels with the right types; a recovery sets no label
(the value of a throw is not typed). -/
def wtE : PExpr → Bool
  | .action a e => !nul e && (areq a).all (fun x => (binds e).lookup x.1 == some x.2) && wtE e
  | .seq es => wtL es
  | .choice es => wtL es
  | .label _ e => wtE e
  | .rule _ => true
  | .lit .. => true
  | .cls .. => true
  | .any => true
  | .not e => wtE e
  | .star e => wtE e
  | .plus e => wtE e
  | .opt e => wtE e
  | .recover _ e h => wtE e && (wtE h && (binds h).isEmpty)
  | .throw _ => true
  | .state _ => true
def wtL : List PExpr → Bool
  | [] => true
  | e :: es => wtE e && wtL es
end

theorem wt_grammar (r : Rule) : wtE (grammar r) = true := by
  cases r <;> decide

theorem infer_grammar (r : Rule) : rsh r = .any ∨ infer (grammar r) = rsh r := by
  cases r <;> first | exact .inl rfl | exact .inr (by decide)

/-- A piece of a frame with these types. -/
def HasB : List (PLabel × Sh) → VFrame → Prop
  | [], [] => True
  | (x, s) :: b, (y, v) :: f => x = y ∧ v.Has s ∧ HasB b f
  | _, _ => False

theorem HasB.append {b b' : List (PLabel × Sh)} {f f' : VFrame} (h : HasB b f) (h' : HasB b' f') :
    HasB (b ++ b') (f ++ f') := by
  induction b generalizing f with
  | nil =>
    cases f with
    | nil => exact h'
    | cons x f => exact h.elim
  | cons x b ih =>
    cases f with
    | nil => exact h.elim
    | cons y f => exact ⟨h.1, h.2.1, ih h.2.2⟩

theorem HasB.get {b : List (PLabel × Sh)} {f fr : VFrame} {x : PLabel} {s : Sh} (h : HasB b f)
    (hx : b.lookup x = some s) : (VFrame.get (f ++ fr) x).Has s := by
  induction b generalizing f with
  | nil => cases hx
  | cons y b ih =>
    cases f with
    | nil => exact h.elim
    | cons z f =>
      obtain ⟨y, t⟩ := y
      obtain ⟨z, v⟩ := z
      obtain ⟨rfl, h2, h3⟩ := h
      unfold VFrame.get
      rw [List.cons_append, List.lookup_cons]
      rw [List.lookup_cons] at hx
      by_cases hxy : x = y
      · subst hxy
        simp only [beq_self_eq_true] at hx ⊢
        cases hx
        exact h2
      · have : (x == y) = false := by simpa using hxy
        rw [this] at hx ⊢
        exact ih h3 hx

/-- `toAny(v)[i]` on tuples: the list of converted elements. -/
theorem mapPieces_ok {α : Type} {i : Nat} {conv : PV → GoM α} {vs : List PV}
    (h : ∀ v ∈ vs, ∃ l x a, v = .list l ∧ l[i]? = some x ∧ conv x = .ok a) :
    ∃ as, mapPieces i conv vs = .ok as := by
  induction vs with
  | nil => exact ⟨[], rfl⟩
  | cons v vs ih =>
    obtain ⟨l, x, a, rfl, hx, ha⟩ := h v (List.mem_cons_self ..)
    obtain ⟨as, has⟩ := ih fun v hv => h v (List.mem_cons_of_mem _ hv)
    refine ⟨a :: as, ?_⟩
    simp only [mapPieces, PV.toAny, PV.index, hx, ha, has, bind, Except.bind, pure, Except.pure]

/-- An action on a typed frame does not panic, and its value is typed unless it reports an error. -/
theorem runAct_typed {a : Act} {fr : VFrame} {text : Str} {p : Loc} (ht : text ≠ [])
    (h : ∀ x ∈ areq a, (fr.get x.1).Has x.2) :
    (∃ v, runAct E a fr text p = .ok (v, none) ∧ v.Has (ash a)) ∨
      ∃ v e, runAct E a fr text p = .ok (v, some e) := by
  have tok : ∀ (r : Option Val) (kind : ErrKind) (k : Nat) (s : Sh), (∀ x, r = some x → (PV.val x).Has s) →
      (∃ v, tokResult r kind k = .ok (v, none) ∧ v.Has s) ∨ ∃ v e, tokResult r kind k = .ok (v, some e) := by
    intro r kind k s hs
    cases r with
    | none => exact .inr ⟨_, _, rfl⟩
    | some x => exact .inl ⟨_, rfl, hs x rfl⟩
  cases a
  case onStart1 => exact .inl ⟨_, rfl, h _ (List.mem_cons_self ..)⟩
  case onQuery1 => exact .inl ⟨_, rfl, h _ (List.mem_cons_self ..)⟩
  case onComparison2 => exact .inl ⟨_, rfl, h _ (List.mem_cons_self ..)⟩
  case onOrClause2 =>
    obtain ⟨n, h1⟩ := h (.lhs, .node) (by simp [areq])
    obtain ⟨m, h2⟩ := h (.rhs, .node) (by simp [areq])
    exact .inl ⟨.node (.or n m), by simp only [runAct]; rw [h1, h2]; rfl, _, rfl⟩
  case onAndClause2 =>
    obtain ⟨n, h1⟩ := h (.lhs, .node) (by simp [areq])
    obtain ⟨m, h2⟩ := h (.rhs, .node) (by simp [areq])
    exact .inl ⟨.node (.and n m), by simp only [runAct]; rw [h1, h2]; rfl, _, rfl⟩
  case onNotClause2 =>
    obtain ⟨n, h1⟩ := h (.cmp, .node) (by simp [areq])
    exact .inl ⟨.node (.not n), by simp only [runAct]; rw [h1]; rfl, _, rfl⟩
  case onComparison10 =>
    obtain ⟨o, h1⟩ := h (.operation, .op) (by simp [areq])
    obtain ⟨f, h2⟩ := h (.field, .fields) (by simp [areq])
    exact .inl ⟨.node (.expr o f [] (getpos p text)), by simp only [runAct]; rw [h1, h2]; rfl, _, rfl⟩
  case onComparison19 =>
    have h1 := h (.operation, .opt .op) (by simp [areq])
    obtain ⟨f, h2⟩ := h (.field, .fields) (by simp [areq])
    obtain ⟨vs, h3⟩ := h (.values, .vals) (by simp [areq])
    rcases h1 with h1 | ⟨o, h1⟩
    · exact .inl ⟨.node (.expr .EQ f vs (getpos p text)), by simp only [runAct]; rw [h1, h2, h3]; rfl, _, rfl⟩
    · exact .inl ⟨.node (.expr o f vs (getpos p text)), by simp only [runAct]; rw [h1, h2, h3]; rfl, _, rfl⟩
  case onField1 =>
    obtain ⟨x, xs, h1, ⟨s, rfl⟩, y, ys, h2, ⟨vs, rfl, h3⟩, h4⟩ :=
      h (.pieces, .consT .str (.consT (.list (.consT .any (.consT .str .nilT))) .nilT)) (by simp [areq])
    cases h2
    cases h4
    obtain ⟨as, has⟩ := mapPieces_ok (i := 1) (conv := PV.asString) (vs := vs) (by
      intro v hv
      obtain ⟨a, as, rfl, -, b, bs, h5, ⟨s, rfl⟩, h6⟩ := h3 v hv
      cases h5
      exact ⟨_, .str s, s, rfl, rfl, rfl⟩)
    left
    refine ⟨.fields (removeStars (s :: as)), ?_, _, rfl⟩
    simp only [runAct]
    change (fr.get .pieces) = _ at h1
    rw [h1]
    simp only [PV.toAny, PV.index, PV.asString, bind, Except.bind, pure, Except.pure, List.length_cons,
      List.getElem?_cons_zero, List.getElem?_cons_succ, has]
    rfl
  case onUnquotedFieldPiece1 => exact .inl ⟨_, rfl, _, rfl⟩
  case onQuotedFieldPiece1 =>
    obtain ⟨s, q, h1⟩ := h (.qv, .strval) (by simp [areq])
    exact .inl ⟨.str s, by simp only [runAct]; rw [h1]; rfl, _, rfl⟩
  case onStar1 => exact .inl ⟨_, rfl, _, rfl⟩
  case onValueList2 =>
    obtain ⟨x, h1⟩ := h (.first, .val) (by simp [areq])
    obtain ⟨vs, h2, h3⟩ := h (.rest, .list (.consT .any (.consT .any (.consT .any (.consT .val .nilT)))))
      (by simp [areq])
    obtain ⟨as, has⟩ := mapPieces_ok (i := 3) (conv := PV.asVal) (vs := vs) (by
      intro v hv
      obtain ⟨a, as, rfl, -, b, bs, h5, -, c, cs, h6, -, d, ds, h7, ⟨y, rfl⟩, h8⟩ := h3 v hv
      cases h5
      cases h6
      cases h7
      exact ⟨_, .val y, y, rfl, rfl, rfl⟩)
    simp only [runAct]
    change fr.get .first = _ at h1
    change fr.get .rest = _ at h2
    rw [h1, h2]
    simp only [PV.toAny, PV.asVal, bind, Except.bind, pure, Except.pure, has]
    by_cases hl : vs.length = 0
    · rw [if_pos hl]; exact .inr ⟨_, _, rfl⟩
    · rw [if_neg hl]; exact .inl ⟨_, rfl, _, rfl⟩
  case onValueList17 =>
    obtain ⟨x, h1⟩ := h (.value, .val) (by simp [areq])
    exact .inl ⟨.vals [x], by simp only [runAct]; rw [h1]; rfl, _, rfl⟩
  case onValue2 =>
    obtain ⟨x, h1⟩ := h (.val, .val) (by simp [areq])
    exact .inl ⟨.val x, by simp only [runAct]; rw [h1]; rfl, _, rfl⟩
  case onValue8 =>
    cases text with
    | nil => exact absurd rfl ht
    | cons c t =>
      right
      by_cases hc : c = ')'
      · exact ⟨.nil, ⟨.closingParen, none⟩, by simp only [runAct, if_pos hc]⟩
      · exact ⟨.nil, ⟨.unknownValue (c :: t), none⟩, by simp only [runAct, if_neg hc]⟩
  case onQuotedValue2 =>
    refine tok _ _ _ _ ?_
    intro x hx
    rcases hu : unquote text with _ | s
    · rw [hu] at hx; cases hx
    · rw [hu] at hx; cases hx; exact ⟨_, _, rfl⟩
  case onRegexValue2 => exact tok _ _ _ _ fun x _ => ⟨x, rfl⟩
  case onFloatValue1 => exact tok _ _ _ _ fun x _ => ⟨x, rfl⟩
  case onIPValue1 => exact tok _ _ _ _ fun x _ => ⟨x, rfl⟩
  case onTimestamp1 => exact tok _ _ _ _ fun x _ => ⟨x, rfl⟩
  case onBoolValue1 =>
    simp only [runAct]
    split
    · exact .inl ⟨_, rfl, _, rfl⟩
    · exact .inr ⟨_, _, rfl⟩
  case onIntValue1 =>
    simp only [runAct]
    split
    · exact .inl ⟨_, rfl, _, rfl⟩
    · exact .inr ⟨_, _, rfl⟩
  case onopNoArgs1 => exact .inl ⟨_, rfl, _, rfl⟩
  case onopComp1 => exact .inl ⟨_, rfl, _, rfl⟩

def Job.wt : Job → Bool
  | .expr e _ => wtE e
  | .seq _ es _ _ => wtL es
  | .choice _ es => wtL es
  | .rep _ e _ _ => wtE e
  | .throw _ _ rs => rs.all fun x => wtE x.2 && (binds x.2).isEmpty

/-- The typing of a result. -/
def Job.Typed : Job → PV → VFrame → Prop
  | .expr e fr, v, fr' => v.Has (infer e) ∧ ∃ b, fr' = b ++ fr ∧ HasB (binds e) b
  | .seq _ es acc fr, v, fr' => (∃ vs, v = .list (acc ++ vs) ∧ (PV.list vs).Has (inferT es)) ∧
      ∃ b, fr' = b ++ fr ∧ HasB (bindsL es) b
  | .choice fr es, v, fr' => v.Has (inferJ es) ∧ fr' = fr
  | .rep fr e _ acc, v, fr' => (∃ vs, v = .list (acc ++ vs) ∧ ∀ x ∈ vs, x.Has (infer e)) ∧ fr' = fr
  | .throw _ fr _, _, fr' => fr' = fr

/-- What a clean evaluation can return. -/
def Job.Fine (j : Job) : Res → Prop
  | .ok v _ fr' => j.Typed v fr'
  | .fail _ => True
  | .panic .. => False

theorem Job.Fine.stop {j j' : Job} {r : Res} (h : j.Fine r) (hs : r.stops) : j'.Fine r := by
  cases r with
  | ok => exact hs.elim
  | fail => trivial
  | panic => exact h.elim

theorem inferJ_head {e : PExpr} {es : List PExpr} {v : PV} (h : v.Has (infer e)) : v.Has (inferJ (e :: es)) := by
  cases es with
  | nil => exact h
  | cons e' es => exact Has.join (.inl h)

theorem inferJ_tail {e : PExpr} {es : List PExpr} {v : PV} (hes : es ≠ []) (h : v.Has (inferJ es)) :
    v.Has (inferJ (e :: es)) := by
  cases es with
  | nil => exact absurd rfl hes
  | cons e' es => exact Has.join (.inr h)

/-- As long as no error is recorded, values are typed and nothing panics. -/
theorem Big.shapes {ctx : Ctx} {j : Job} {c : Cursor} {l : List Ev} {r : Res} (h : Big E ctx j c l r) :
    errorsOf l = [] → j.wt = true → (ctx.recov.all fun x => wtE x.2 && (binds x.2).isEmpty) = true →
      j.Fine r := by
  have act : ∀ {ctx : Ctx} {a : Act} {e : PExpr} {fr : VFrame} {c : Cursor} {l : List Ev} {v : PV}
      {c' : Cursor} {fr' : VFrame}, Big E ctx (.expr e fr) c l (.ok v c' fr') →
      (Job.expr e fr).Fine (.ok v c' fr') → wtE (.action a e) = true →
      ((∃ v', runAct E a fr' (textOf c c') c.loc = .ok (v', none) ∧ v'.Has (ash a)) ∨
        ∃ v' er, runAct E a fr' (textOf c c') c.loc = .ok (v', some er)) := by
    intro ctx a e fr c l v c' fr' h hf hw
    rw [wtE, Bool.and_eq_true, Bool.and_eq_true] at hw
    obtain ⟨t, ht⟩ := h.ok_adv
    refine runAct_typed ?_ ?_
    · rw [ht.textOf]
      intro h0
      rw [List.map_eq_nil_iff] at h0
      subst h0
      have := h.consumes _ _ _ rfl (by simpa [Job.nul] using hw.1.1)
      rw [ht.rest] at this
      simp at this
    · intro x hx
      obtain ⟨_, b, rfl, hb⟩ := hf
      have := List.all_eq_true.1 hw.1.2 x hx
      exact hb.get (by simpa using this)
  induction h with
  | action_ok h ha ih =>
    intro hl hj hc
    have hj' := hj
    rw [Job.wt, wtE, Bool.and_eq_true] at hj'
    have := ih hl hj'.2 hc
    rcases act h this hj with ⟨v', h1, h2⟩ | ⟨v', er, h1⟩
    · rw [ha] at h1; cases h1
      exact ⟨h2, this.2⟩
    · rw [ha] at h1; cases h1
  | action_err h ha ih =>
    intro hl hj hc
    rw [errorsOf_tick, errorsOf_append, List.append_eq_nil_iff] at hl
    cases hl.2
  | action_panic h ha ih =>
    intro hl hj hc
    have hj' := hj
    rw [Job.wt, wtE, Bool.and_eq_true] at hj'
    rcases act h (ih hl hj'.2 hc) hj with ⟨v', h1, h2⟩ | ⟨v', er, h1⟩
    · rw [ha] at h1; cases h1
    · rw [ha] at h1; cases h1
  | action_stop h hs ih =>
    intro hl hj hc
    rw [Job.wt, wtE, Bool.and_eq_true] at hj
    exact (ih hl hj.2 hc).stop hs
  | @seq _ es fr _ _ r h ih =>
    intro hl hj hc
    have := ih hl hj hc
    cases r with
    | ok v c' fr' =>
      obtain ⟨⟨vs, rfl, hv⟩, hb⟩ := this
      exact ⟨hv, hb⟩
    | fail => trivial
    | panic => exact this.elim
  | @seq_nil _ _ acc fr _ => intro _ _ _; exact ⟨⟨[], by simp, rfl⟩, [], rfl, trivial⟩
  | @seq_cons _ _ e es acc fr _ _ v _ fr' _ r h1 h2 ih1 ih2 =>
    intro hl hj hc
    rw [errorsOf_append, List.append_eq_nil_iff] at hl
    rw [Job.wt, wtL, Bool.and_eq_true] at hj
    obtain ⟨hv, b, rfl, hb⟩ := ih1 hl.1 hj.1 hc
    have := ih2 hl.2 hj.2 hc
    cases r with
    | ok w c' fr'' =>
      obtain ⟨⟨vs, rfl, hvs⟩, b', rfl, hb'⟩ := this
      exact ⟨⟨v :: vs, by simp, v, vs, rfl, hv, hvs⟩, b' ++ b, by simp, hb'.append hb⟩
    | fail => trivial
    | panic => exact this.elim
  | seq_fail h ih => intro _ _ _; trivial
  | seq_panic h ih =>
    intro hl hj hc
    rw [Job.wt, wtL, Bool.and_eq_true] at hj
    exact ih hl hj.1 hc
  | @choice _ es fr _ _ r h ih =>
    intro hl hj hc
    have := ih hl hj hc
    cases r with
    | ok v c' fr' => exact ⟨this.1, [], by rw [this.2]; rfl, trivial⟩
    | fail => trivial
    | panic => exact this.elim
  | choice_nil => intro _ _ _; trivial
  | choice_ok h ih =>
    intro hl hj hc
    rw [Job.wt, wtL, Bool.and_eq_true] at hj
    exact ⟨inferJ_head (ih hl hj.1 hc).1, rfl⟩
  | @choice_next _ fr e es _ _ _ _ r h1 h2 ih1 ih2 =>
    intro hl hj hc
    rw [errorsOf_append, List.append_eq_nil_iff] at hl
    rw [Job.wt, wtL, Bool.and_eq_true] at hj
    have := ih2 hl.2 hj.2 hc
    cases r with
    | ok v c' fr' =>
      refine ⟨inferJ_tail ?_ this.1, this.2⟩
      rintro rfl
      cases h2
    | fail => trivial
    | panic => exact this.elim
  | choice_panic h ih =>
    intro hl hj hc
    rw [Job.wt, wtL, Bool.and_eq_true] at hj
    exact ih hl hj.1 hc
  | @label_ok _ x e fr _ _ v _ _ h ih =>
    intro hl hj hc
    have := (ih hl hj hc).1
    exact ⟨this, [(x, v)], rfl, rfl, this, trivial⟩
  | label_stop h hs ih => intro hl hj hc; exact (ih hl hj hc).stop hs
  | @rule_ok _ x fr _ _ v _ _ h ih =>
    intro hl hj hc
    have := (ih hl (wt_grammar x) hc).1
    refine ⟨?_, [], rfl, trivial⟩
    change v.Has (rsh x)
    rcases infer_grammar x with h | h
    · rw [h]; trivial
    · rw [← h]; exact this
  | @rule_stop _ x _ _ _ _ h hs ih => intro hl hj hc; exact (ih hl (wt_grammar x) hc).stop hs
  | lit_ok h => intro _ _ _; exact ⟨trivial, [], rfl, trivial⟩
  | lit_fail h => intro _ _ _; trivial
  | cls_ok hr hm => intro _ _ _; exact ⟨trivial, [], rfl, trivial⟩
  | cls_fail h => intro _ _ _; trivial
  | any_ok hr => intro _ _ _; exact ⟨trivial, [], rfl, trivial⟩
  | any_eof hr => intro _ _ _; trivial
  | not_ok h ih => intro _ _ _; exact ⟨trivial, [], rfl, trivial⟩
  | not_fail h ih => intro _ _ _; trivial
  | not_panic h ih => intro hl hj hc; exact ih hl hj hc
  | @star _ e fr _ _ r h ih =>
    intro hl hj hc
    have := ih hl hj hc
    cases r with
    | ok v c' fr' =>
      obtain ⟨⟨vs, rfl, hv⟩, rfl⟩ := this
      exact ⟨⟨vs, rfl, hv⟩, [], rfl, trivial⟩
    | fail => trivial
    | panic => exact this.elim
  | @plus _ e fr _ _ r h ih =>
    intro hl hj hc
    have := ih hl hj hc
    cases r with
    | ok v c' fr' =>
      obtain ⟨⟨vs, rfl, hv⟩, rfl⟩ := this
      exact ⟨⟨vs, rfl, hv⟩, [], rfl, trivial⟩
    | fail => trivial
    | panic => exact this.elim
  | @rep_next _ fr e _ acc _ _ v _ _ _ r h1 h2 ih1 ih2 =>
    intro hl hj hc
    rw [errorsOf_append, List.append_eq_nil_iff] at hl
    have hv := (ih1 hl.1 hj hc).1
    have := ih2 hl.2 hj hc
    cases r with
    | ok w c' fr' =>
      obtain ⟨⟨vs, rfl, hvs⟩, rfl⟩ := this
      refine ⟨⟨v :: vs, by simp, ?_⟩, rfl⟩
      intro x hx
      rcases List.mem_cons.1 hx with rfl | hx
      · exact hv
      · exact hvs x hx
    | fail => trivial
    | panic => exact this.elim
  | rep_stop h hcond ih => intro _ _ _; exact ⟨⟨[], by simp, by simp⟩, rfl⟩
  | rep_fail h ih => intro _ _ _; trivial
  | rep_panic h ih => intro hl hj hc; exact ih hl hj hc
  | opt_ok h ih => intro hl hj hc; exact ⟨.inr (ih hl hj hc).1, [], rfl, trivial⟩
  | opt_none h ih => intro _ _ _; exact ⟨.inl rfl, [], rfl, trivial⟩
  | opt_panic h ih => intro hl hj hc; exact ih hl hj hc
  | @recover _ _ _ _ _ _ _ r h ih =>
    intro hl hj hc
    rw [Job.wt, wtE, Bool.and_eq_true] at hj
    have := ih hl hj.1 (by rw [List.all_cons, Bool.and_eq_true]; exact ⟨hj.2, hc⟩)
    cases r with
    | ok v c' fr' => exact this
    | fail => trivial
    | panic => exact this.elim
  | @throw _ _ _ _ _ r h ih =>
    intro hl hj hc
    have := ih hl hc hc
    cases r with
    | ok v c' fr' => exact ⟨trivial, [], this, trivial⟩
    | fail => trivial
    | panic => exact this.elim
  | throw_nil => intro _ _ _; trivial
  | @throw_skip _ _ _ _ _ _ _ _ r hne h ih =>
    intro hl hj hc
    rw [Job.wt, List.all_cons, Bool.and_eq_true] at hj
    have := ih hl hj.2 hc
    cases r with
    | ok v c' fr' => exact this
    | fail => trivial
    | panic => exact this.elim
  | @throw_ok _ _ _ _ _ _ _ _ _ _ h ih =>
    intro hl hj hc
    rw [Job.wt, List.all_cons, Bool.and_eq_true, Bool.and_eq_true] at hj
    obtain ⟨_, b, rfl, hb⟩ := ih hl hj.1.1 hc
    have h0 := List.isEmpty_iff.1 hj.1.2
    rw [h0] at hb
    cases b with
    | nil => rfl
    | cons => exact hb.elim
  | @throw_next _ _ _ _ _ _ _ _ _ r h1 h2 ih1 ih2 =>
    intro hl hj hc
    rw [errorsOf_append, List.append_eq_nil_iff] at hl
    rw [Job.wt, List.all_cons, Bool.and_eq_true] at hj
    have := ih2 hl.2 hj.2 hc
    cases r with
    | ok v c' fr' => exact this
    | fail => trivial
    | panic => exact this.elim
  | throw_panic h ih =>
    intro hl hj hc
    rw [Job.wt, List.all_cons, Bool.and_eq_true, Bool.and_eq_true] at hj
    exact ih hl hj.1.1 hc
  | state => intro hl; cases hl

end Aql
