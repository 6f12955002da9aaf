import Verif.Proofs.Source
/-!
Keywords that one of two texts contains whole and the other in part.
-/

namespace Aql

open Spec

variable {E : Env}

/-! ### The tests of alternatives -/

theorem choice_marks {ctx : Ctx} {fr : VFrame} {es : List PExpr} {c : Cursor} {l : List Ev} {r : Res} {f i : Bool}
    {q : Loc} {w : Str} (h : Big E ctx (.choice fr es) c l r) (hm : Ev.mark f i q w ∈ l) :
    ∃ e ∈ es, ∃ l' r', Big E ctx (.expr e []) c l' r' ∧ Ev.mark f i q w ∈ l' := by
  induction es generalizing l r with
  | nil => cases h; cases hm
  | cons e es ih =>
    cases h with
    | choice_ok h => exact ⟨e, by simp, _, _, h, hm⟩
    | choice_next h1 h2 =>
      have hb := h1.fail_back
      subst hb
      rcases List.mem_append.1 hm with hm | hm
      · exact ⟨e, by simp, _, _, h1, hm⟩
      · obtain ⟨e', he, l', r', h, hm⟩ := ih h2 hm
        exact ⟨e', by simp [he], l', r', h, hm⟩
    | choice_panic h => exact ⟨e, by simp, _, _, h, hm⟩

theorem action_marks {ctx : Ctx} {a : Act} {fr : VFrame} {e : PExpr} {c : Cursor} {l : List Ev} {r : Res} {f i : Bool}
    {q : Loc} {w : Str} (h : Big E ctx (.expr (.action a e) fr) c l r) (hm : Ev.mark f i q w ∈ l) :
    ∃ l' r', Big E ctx (.expr e fr) c l' r' ∧ Ev.mark f i q w ∈ l' := by
  cases h with
  | action_ok h _ => exact ⟨_, _, h, mem_tick_mark hm⟩
  | action_err h _ =>
    rcases List.mem_append.1 (mem_tick_mark hm) with hm | hm
    · exact ⟨_, _, h, hm⟩
    · simp at hm
  | action_panic h _ => exact ⟨_, _, h, mem_tick_mark hm⟩
  | action_stop h _ => exact ⟨_, _, h, mem_tick_mark hm⟩

theorem action_marks' {ctx : Ctx} {a : Act} {fr : VFrame} {e : PExpr} {c : Cursor} {l : List Ev} {r : Res} {f i : Bool}
    {q : Loc} {w : Str} (h : Big E ctx (.expr (.action a e) fr) c l r) (hl : errorsOf l = []) (hr : r.Calm)
    (hm : Ev.mark f i q w ∈ l) :
    ∃ l' r', Big E ctx (.expr e fr) c l' r' ∧ errorsOf l' = [] ∧ r'.Calm ∧ r'.Eqv r ∧ Ev.mark f i q w ∈ l' := by
  cases h with
  | action_ok h _ => exact ⟨_, _, h, hl, trivial, rfl, mem_tick_mark hm⟩
  | action_err h _ =>
    rw [errorsOf_cons_tick, errorsOf_append_nil] at hl
    cases hl.2
  | action_panic h _ => exact hr.elim
  | action_stop h hs => exact ⟨_, _, h, hl, hr, .rfl' hr, mem_tick_mark hm⟩

theorem errorsOf_sub {l l' : List Ev} (h : errorsOf l = []) (hs : ∀ ev ∈ l', ev ∈ l) : errorsOf l' = [] := by
  unfold errorsOf at h ⊢
  rw [List.filterMap_eq_nil_iff] at h ⊢
  exact fun ev he => h ev (hs ev he)

theorem label_marks {ctx : Ctx} {x : PLabel} {fr : VFrame} {e : PExpr} {c : Cursor} {l : List Ev} {r : Res} {f i : Bool}
    {q : Loc} {w : Str} (h : Big E ctx (.expr (.label x e) fr) c l r) (hm : Ev.mark f i q w ∈ l) :
    ∃ l' r', Big E ctx (.expr e []) c l' r' ∧ Ev.mark f i q w ∈ l' := by
  cases h with
  | label_ok h => exact ⟨_, _, h, mem_tick_mark hm⟩
  | label_stop h _ => exact ⟨_, _, h, mem_tick_mark hm⟩

theorem rule_marks {ctx : Ctx} {x : Rule} {fr : VFrame} {c : Cursor} {l : List Ev} {r : Res} {f i : Bool}
    {q : Loc} {w : Str} (h : Big E ctx (.expr (.rule x) fr) c l r) (hm : Ev.mark f i q w ∈ l) :
    ∃ l' r', Big E ctx (.expr (grammar x) []) c l' r' ∧ Ev.mark f i q w ∈ l' := by
  cases h with
  | rule_ok h => exact ⟨_, _, h, mem_tick_mark hm⟩
  | rule_stop h _ => exact ⟨_, _, h, mem_tick_mark hm⟩

theorem alts_marks {ctx : Ctx} {fr : VFrame} {es : List PExpr} {c : Cursor} {l : List Ev} {r : Res} {f i : Bool}
    {q : Loc} {w : Str} (h : Big E ctx (.expr (.choice es) fr) c l r) (hm : Ev.mark f i q w ∈ l) :
    ∃ e ∈ es, ∃ l' r', Big E ctx (.expr e []) c l' r' ∧ Ev.mark f i q w ∈ l' := by
  cases h with
  | choice h => exact choice_marks h (mem_tick_mark hm)

theorem opt_marks {ctx : Ctx} {fr : VFrame} {e : PExpr} {c : Cursor} {l : List Ev} {r : Res} {f i : Bool}
    {q : Loc} {w : Str} (h : Big E ctx (.expr (.opt e) fr) c l r) (hm : Ev.mark f i q w ∈ l) :
    ∃ l' r', Big E ctx (.expr e []) c l' r' ∧ Ev.mark f i q w ∈ l' := by
  cases h with
  | opt_ok h => exact ⟨_, _, h, mem_tick_mark hm⟩
  | opt_none h => exact ⟨_, _, h, mem_tick_mark hm⟩
  | opt_panic h => exact ⟨_, _, h, mem_tick_mark hm⟩

/-- The test of a literal is where the literal is tried. -/
theorem lit_marks {ctx : Ctx} {k w' : Str} {fr : VFrame} {pre s : Str} {l : List Ev} {r : Res} {f i : Bool} {q : Loc}
    {w : Str} (h : Big E ctx (.expr (.lit k false w') fr) (cur pre s) l r) (hm : Ev.mark f i q w ∈ l) :
    q = locAt pre s ∧ w = w' ∧ (f = false → ∀ b, s ≠ k ++ b) := by
  by_cases hk : ∃ b, s = k ++ b
  · obtain ⟨b, rfl⟩ := hk
    have hl := (litLoop_cur (E := E) false k pre (k ++ b)).1 k b rfl (by simp)
    cases h with
    | lit_ok h =>
      rw [hl] at h
      cases h
      simp only [List.nil_append, List.mem_cons, List.not_mem_nil, or_false, reduceCtorEq, false_or, Ev.mark.injEq] at hm
      obtain ⟨rfl, -, rfl, rfl⟩ := hm
      exact ⟨rfl, rfl, fun h => by cases h⟩
    | lit_fail h => rw [hl] at h; cases h
  · have hl := (litLoop_cur (E := E) false k pre s).2 (by
      rintro a b rfl ha
      simp only [Bool.false_eq_true, if_false, List.map_id'] at ha
      subst ha
      exact hk ⟨b, rfl⟩)
    cases h with
    | lit_ok h => rw [hl] at h; cases h
    | lit_fail h =>
      rw [hl] at h
      cases h
      simp only [List.nil_append, List.mem_cons, List.not_mem_nil, or_false, reduceCtorEq, false_or, Ev.mark.injEq] at hm
      obtain ⟨rfl, -, rfl, rfl⟩ := hm
      exact ⟨rfl, rfl, fun _ b hb => hk ⟨b, hb⟩⟩

/-- No test of a run over other rules. -/
theorem no_mark {P : Str → Bool} {R : Rule → Bool} {j : Job} {c : Cursor} {l : List Ev} {r : Res} {f i : Bool} {q : Loc}
    {w : Str} (h : Big E ⟨false, []⟩ j c l r) (hm : Ev.mark f i q w ∈ l) (hP : P w = false)
    (hR : ∀ r, R r = true → wantE P R (grammar r) = true) (hj : j.want P R = true) : False := by
  have := h.wants hR hj rfl _ hm
  rw [Ev.In, hP] at this
  cases this

mutual
theorem src_of_want {P : Str → Bool} {S : Spot} {R : Rule → Bool} {e : PExpr} (hp : plainE e = true)
    (h : wantE (fun w => !P w) R e = true) : srcE P S R e := by
  match e with
  | .action _ e => exact src_of_want (e := e) hp h
  | .seq es => exact srcS_of_want hp h
  | .choice es =>
    rw [plainE, Bool.and_eq_true] at hp
    exact srcC_of_want hp.2 h
  | .label _ e => exact src_of_want (e := e) hp h
  | .rule r => exact h
  | .lit _ _ w => simpa [wantE, srcE] using h
  | .cls _ _ _ _ w => simpa [wantE, srcE] using h
  | .any => cases hp
  | .not e => cases hp
  | .star e => exact src_of_want (e := e) hp h
  | .plus e => exact src_of_want (e := e) hp h
  | .opt e => exact src_of_want (e := e) hp h
  | .recover _ e h => cases hp
  | .throw _ => cases hp
  | .state _ => cases hp
theorem srcS_of_want {P : Str → Bool} {S : Spot} {R : Rule → Bool} {es : List PExpr} (hp : plainL es = true)
    (h : wantL (fun w => !P w) R es = true) : srcS P S R es := by
  match es with
  | [] => trivial
  | e :: es =>
    rw [plainL, Bool.and_eq_true] at hp
    rw [wantL, Bool.and_eq_true] at h
    exact .inr ⟨src_of_want hp.1 h.1, srcS_of_want hp.2 h.2⟩
theorem srcC_of_want {P : Str → Bool} {S : Spot} {R : Rule → Bool} {es : List PExpr} (hp : plainL es = true)
    (h : wantL (fun w => !P w) R es = true) : srcC P S R es := by
  match es with
  | [] => trivial
  | e :: es =>
    rw [plainL, Bool.and_eq_true] at hp
    rw [wantL, Bool.and_eq_true] at h
    exact .inr ⟨src_of_want hp.1 h.1, srcC_of_want hp.2 h.2⟩
end

/-! ### Literals -/

theorem value_no {ctx : Ctx} {fr : VFrame} {pre s : Str} (h : No E ctx (.rule .Value) fr pre s) :
    NoHead (fun c => ¬ IsWs c) s := by
  have h := noR.1 h
  unfold RuleNo at h
  simp only [grammar, no_choice, NoC, no_action, no_plus, no_cls] at h
  intro c t hs hc
  have := h.2.1 c t hs
  rw [cls_notWs.2 hc] at this
  cases this

/-- The alternatives of the rule for values. -/
def valueAlts : List PExpr :=
  [.action .onValue2
      (.label .val (.choice [.rule .QuotedValue,
          .rule .RegexValue,
          .rule .BareValue])),
    .action .onValue8
      (.plus (.cls [' ', '\n', '\t', '\r'] [] false true "[^ \\n\\t\\r]".toList))]

/-- A run of the rule for values without errors. -/
theorem value_calm {ctx : Ctx} {fr : VFrame} {pre s : Str} {l : List Ev} {r : Res}
    (h : Big E ctx (.choice fr valueAlts) (cur pre s) l r) (hl : errorsOf l = []) (hr : r.Calm) :
    (∃ x a b, s = a ++ b ∧ Lit E pre a x) ∨ NoHead (fun c => ¬ IsWs c) s := by
  cases r with
  | ok v c fr' =>
    obtain ⟨a, b, -, h⟩ := okJ_of_big h hl
    obtain ⟨-, h⟩ := okJ_choice.1 h
    have h : RuleOk E ctx .Value pre s v a b := ⟨[], ok_choice.2 ⟨rfl, h⟩⟩
    obtain ⟨x, -, hx⟩ := value_lit h
    exact .inl ⟨x, a, b, h.split, hx⟩
  | fail d =>
    have h : NoJ E ctx (.choice fr valueAlts) pre s := ⟨l, d, h, hl⟩
    exact .inr (value_no (fr := []) (noR.2 (no_choice.2 (noJ_choice.1 h))))
  | panic _ _ => exact hr.elim

theorem lit_word {pre a u : Str} {x : Val} {c : Char} (h : Lit E pre a x) (ha : a = c :: u) (hc : c = 't' ∨ c = 'f') :
    a = (if c = 't' then "true".toList else "false".toList) := by
  have dig : ∀ d v, a = d :: v → Dig d → False := by
    rintro d v rfl hd
    cases ha
    rcases hc with rfl | rfl <;> revert hd <;> decide
  have num : ∀ m d v, Minus m → d ≠ [] → AllDigits d → a = m ++ (d ++ v) → False := by
    rintro m d v hm hn hd rfl
    rcases hm with rfl | rfl
    · obtain ⟨e, d, rfl⟩ := List.exists_cons_of_ne_nil hn
      exact dig e (d ++ v) rfl (hd e (by simp))
    · cases ha
      simp at hc
  cases h with
  | string _ h => subst h; cases ha; simp at hc
  | regex _ h => subst h; cases ha; simp at hc
  | stamp h => obtain ⟨c, u, h, hc⟩ := stamp_cons h; exact (dig c u h hc).elim
  | day h => obtain ⟨c, u, h, hc⟩ := day_cons h; exact (dig c u h hc).elim
  | address h => obtain ⟨c, u, h, hc⟩ := addr_cons h []; exact (dig c u (by simpa using h) hc).elim
  | block h _ ha => obtain ⟨c, u, h, hc⟩ := addr_cons h _; exact (dig c u (ha.trans h) hc).elim
  | float hm hp hp2 _ _ ha => exact (num _ _ _ hm hp hp2 ha).elim
  | int hm hp hp2 ha => exact (num _ _ [] hm hp hp2 (by simpa using ha)).elim
  | true_ => cases ha; rfl
  | false_ => cases ha; rfl

def boolW (w : Str) : Bool := w == "\"true\"".toList || w == "\"false\"".toList

/-- The rules of values, except for truth values. -/
def valueR : Rule → Bool
  | .Timestamp | .IPValue | .FloatValue | .IntValue | .Octet | .CIDRBlock | .dateTime | .fullDate | .dateFullyear
  | .dateMonth | .dateMday | .timeHour | .timeMinute | .timeSecond | .timeSecfrac | .timeNumoffset | .timeOffset
  | .partialTime | .fullTime | .Digit4 | .Digit2 => true
  | x => tokR x

theorem valueR_bool (r : Rule) (h : valueR r = true) : wantE (fun w => !boolW w) valueR (grammar r) = true := by
  cases r <;> first | (exfalso; revert h; decide +kernel) | decide +kernel

theorem tokR_bool (r : Rule) (h : tokR r = true) : wantE (fun w => !boolW w) tokR (grammar r) = true := by
  cases r <;> first | (exfalso; revert h; decide +kernel) | decide +kernel

def valueSpot : Spot := ⟨fun es => es = valueAlts, fun _ => False⟩

/-- Rules of queries. -/
def queryR : Rule → Bool
  | .BoolValue | .BareValue => false
  | x => plainR x

theorem src_value (r : Rule) (h : queryR r = true) (ht : isTok r = false) : srcE boolW valueSpot queryR (grammar r) := by
  cases r <;> first
    | (exfalso; revert h; decide +kernel)
    | (exfalso; revert ht; decide +kernel)
    | exact Or.inl (rfl : _ = valueAlts)
    | exact src_of_want (by decide +kernel) (by decide +kernel)

/-- A truth value is tried where a value is tried. -/
theorem bool_place {fr : VFrame} {pre s : Str} {l : List Ev} {r : Res} {f i : Bool} {q : Loc} {w : Str}
    (h : Big E ⟨false, []⟩ (.choice fr valueAlts) (cur pre s) l r) (hm : Ev.mark f i q w ∈ l) (hw : boolW w = true) :
    q = locAt pre s ∧ (f = false → ∀ b, (w = "\"true\"".toList → s ≠ "true".toList ++ b) ∧
      (w = "\"false\"".toList → s ≠ "false".toList ++ b)) := by
  have hw' : (fun w => !boolW w) w = false := by simp [hw]
  have other : ∀ {e : PExpr} {l' : List Ev} {r' : Res}, Big E ⟨false, []⟩ (.expr e []) (cur pre s) l' r' →
      Ev.mark f i q w ∈ l' → wantE (fun w => !boolW w) valueR e = true → False :=
    fun h hm he => no_mark h hm hw' valueR_bool he
  obtain ⟨e, he, l1, r1, h, hm⟩ := choice_marks h hm
  simp only [valueAlts, List.mem_cons, List.not_mem_nil, or_false] at he
  rcases he with rfl | rfl
  swap
  · exact (other h hm (by decide +kernel)).elim
  obtain ⟨l2, r2, h, hm⟩ := action_marks h hm
  obtain ⟨l3, r3, h, hm⟩ := label_marks h hm
  obtain ⟨e, he, l4, r4, h, hm⟩ := alts_marks h hm
  simp only [List.mem_cons, List.not_mem_nil, or_false] at he
  rcases he with rfl | rfl | rfl
  · exact (other h hm (by decide +kernel)).elim
  · exact (other h hm (by decide +kernel)).elim
  obtain ⟨l5, r5, h, hm⟩ := rule_marks h hm
  obtain ⟨e, he, l6, r6, h, hm⟩ := alts_marks h hm
  simp only [List.mem_cons, List.not_mem_nil, or_false] at he
  rcases he with rfl | rfl | rfl | rfl | rfl
  · exact (other h hm (by decide +kernel)).elim
  · exact (other h hm (by decide +kernel)).elim
  · exact (other h hm (by decide +kernel)).elim
  · exact (other h hm (by decide +kernel)).elim
  obtain ⟨l7, r7, h, hm⟩ := rule_marks h hm
  obtain ⟨l8, r8, h, hm⟩ := action_marks h hm
  obtain ⟨e, he, l9, r9, h, hm⟩ := alts_marks h hm
  simp only [List.mem_cons, List.not_mem_nil, or_false] at he
  rcases he with rfl | rfl
  · obtain ⟨h1, rfl, h3⟩ := lit_marks h hm
    exact ⟨h1, fun hf b => ⟨fun he => absurd he (by decide +kernel), fun _ => h3 hf b⟩⟩
  · obtain ⟨h1, rfl, h3⟩ := lit_marks h hm
    exact ⟨h1, fun hf b => ⟨fun _ => h3 hf b, fun he => absurd he (by decide +kernel)⟩⟩

theorem locAt_same {p q a b : Str} (h : p ++ a = q ++ b) (hl : locAt p a = locAt q b) : p = q ∧ a = b := by
  refine same_place h ?_
  rw [← locAt_off p a, hl, locAt_off]

/-- Where a truth value fails, none has begun. -/
theorem bool_torn {j : Job} {pre s : Str} {l : List Ev} {r : Res} (h : Big E ⟨false, []⟩ j (cur pre s) l r)
    (hj : j.plain = true) (hs : j.src boolW valueSpot queryR) (hl : errorsOf l = []) (hr : r.Calm)
    {i : Bool} {p1 post w : Str} (hm : Ev.mark false i (locAt p1 post) w ∈ l) (hw : boolW w = true)
    (hp : pre ++ s = p1 ++ post) :
    (w = "\"true\"".toList → NoHead (· = 't') post) ∧ (w = "\"false\"".toList → NoHead (· = 'f') post) := by
  obtain ⟨j, p2, s2, l', r', hS, h, hm, -, -, hl, hr, hp2⟩ := h.source src_value tokR_bool rfl rfl hj hs hl hr hw hm
  cases j <;> first | (exact hS.elim) | skip
  rename_i fr es
  have hS : es = valueAlts := hS
  subst hS
  obtain ⟨h1, h2⟩ := bool_place h hm hw
  obtain ⟨rfl, rfl⟩ := locAt_same (hp2.trans hp).symm h1
  rcases value_calm h hl hr with ⟨x, a, b, rfl, hx⟩ | hn
  · obtain ⟨c, u, rfl, -⟩ := lit_cons hx
    constructor
    · rintro hw d v hd rfl
      cases hd
      have := lit_word hx rfl (.inl rfl)
      refine (h2 rfl b).1 hw ?_
      rw [this]
      rfl
    · rintro hw d v hd rfl
      cases hd
      have := lit_word hx rfl (.inr rfl)
      refine (h2 rfl b).2 hw ?_
      rw [this]
      rfl
  · constructor
    · rintro - d v hd rfl
      exact hn _ v hd (by decide)
    · rintro - d v hd rfl
      exact hn _ v hd (by decide)

/-! ### Operators without arguments -/

/-- What a sequence and another one with the same beginning have in common, if a test of `P` is made in the last
expression of the first. -/
theorem seq_last {P : Str → Bool} {R : Rule → Bool} {st : Cursor} {es : List PExpr} {e : PExpr} {acc : List PV}
    {fr : VFrame} {pre s : Str} {l : List Ev} {r : Res} {f i : Bool} {q : Loc} {w : Str}
    (h : Big E ⟨false, []⟩ (.seq st (es ++ [e]) acc fr) (cur pre s) l r) (hm : Ev.mark f i q w ∈ l) (hP : P w = false)
    (hR : ∀ r, R r = true → wantE P R (grammar r) = true) (hes : wantL P R es = true) :
    ∃ acc' fr' a b l' r', s = a ++ b ∧ Big E ⟨false, []⟩ (.expr e fr') (cur (pre ++ a) b) l' r' ∧ Ev.mark f i q w ∈ l' ∧
      (∀ ev ∈ l', ev ∈ l) ∧ (∀ v c g, r = .ok v c g → ∃ v c g, r' = .ok v c g) ∧
      ∀ {st' : Cursor} {es' : List PExpr} {l2 : List Ev} {r2 : Res},
        Big E ⟨false, []⟩ (.seq st' (es ++ es') acc fr) (cur pre s) l2 r2 →
        ∃ l1 l2', l2 = l1 ++ l2' ∧ Big E ⟨false, []⟩ (.seq st' es' acc' fr') (cur (pre ++ a) b) l2' r2 := by
  induction es generalizing acc fr pre s l with
  | nil =>
    cases h with
    | seq_cons h1 h2 =>
      cases h2
      rw [List.append_nil] at hm
      refine ⟨acc, fr, [], s, _, _, rfl, by rw [List.append_nil]; exact h1, hm, by simp, fun _ _ _ _ => ⟨_, _, _, rfl⟩, ?_⟩
      intro st' es' l2 r2 h2
      exact ⟨[], l2, rfl, by rw [List.append_nil]; exact h2⟩
    | seq_fail h1 =>
      refine ⟨acc, fr, [], s, _, _, rfl, by rw [List.append_nil]; exact h1, hm, by simp, (fun _ _ _ h => by cases h), ?_⟩
      intro st' es' l2 r2 h2
      exact ⟨[], l2, rfl, by rw [List.append_nil]; exact h2⟩
    | seq_panic h1 =>
      refine ⟨acc, fr, [], s, _, _, rfl, by rw [List.append_nil]; exact h1, hm, by simp, (fun _ _ _ h => by cases h), ?_⟩
      intro st' es' l2 r2 h2
      exact ⟨[], l2, rfl, by rw [List.append_nil]; exact h2⟩
  | cons e1 es ih =>
    rw [wantL, Bool.and_eq_true] at hes
    cases h with
    | seq_cons h1 h2 =>
      rcases List.mem_append.1 hm with hm | hm
      · exact (no_mark h1 hm hP hR hes.1).elim
      · obtain ⟨u, hu⟩ := h1.ok_adv
        obtain ⟨a1, b1, rfl, rfl⟩ := adv_cur hu
        obtain ⟨acc', fr', a, b, l', r', rfl, h3, h4, h5, h6, h7⟩ := ih h2 hm hes.2
        refine ⟨acc', fr', a1 ++ a, b, l', r', by simp, by rw [← List.append_assoc]; exact h3, h4,
          fun ev he => List.mem_append_right _ (h5 ev he), h6, ?_⟩
        intro st' es' l2 r2 h8
        cases h8 with
        | seq_cons h8 h9 =>
          obtain ⟨rfl, hd⟩ := h1.det h8
          cases hd
          obtain ⟨l1, l2', rfl, h10⟩ := h7 h9
          exact ⟨_, l2', (List.append_assoc _ _ _).symm, by rw [← List.append_assoc]; exact h10⟩
        | seq_fail h8 => obtain ⟨-, hd⟩ := h1.det h8; cases hd
        | seq_panic h8 => obtain ⟨-, hd⟩ := h1.det h8; cases hd
    | seq_fail h1 => exact (no_mark h1 hm hP hR hes.1).elim
    | seq_panic h1 => exact (no_mark h1 hm hP hR hes.1).elim

/-- The beginning of a comparison. -/
def cmpHead : List PExpr :=
  [.label .field (.rule .Field), .rule .ws, .lit [':'] false "\":\"".toList, .rule .ws]

/-- What follows it, if there are values. -/
def cmpTail : List PExpr :=
  [.label .operation (.opt (.rule .opComp)), .rule .ws, .label .values (.rule .ValueList)]

/-- The alternatives for a comparison that is not in parentheses. -/
def cmpAlts : List PExpr :=
  [.action .onComparison10 (.seq (cmpHead ++ [.label .operation (.rule .opNoArgs)])),
    .action .onComparison19 (.seq (cmpHead ++ cmpTail))]

def noArgW (w : Str) : Bool := w == "\"exists\"".toList || w == "\"null\"".toList

/-- The rules of comparisons, except for the operators without arguments. -/
def cmpR : Rule → Bool
  | .Field | .FieldPiece | .UnquotedFieldPiece | .QuotedFieldPiece | .Star | .ws | .opComp | .ValueList | .Value
  | .BareValue | .BoolValue => true
  | x => valueR x

theorem cmpR_noArg (r : Rule) (h : cmpR r = true) : wantE (fun w => !noArgW w) cmpR (grammar r) = true := by
  cases r <;> first | (exfalso; revert h; decide +kernel) | decide +kernel

theorem tokR_noArg (r : Rule) (h : tokR r = true) : wantE (fun w => !noArgW w) tokR (grammar r) = true := by
  cases r <;> first | (exfalso; revert h; decide +kernel) | decide +kernel

def cmpSpot : Spot := ⟨fun es => es = cmpAlts, fun _ => False⟩

/-- Rules of queries without the operators without arguments. -/
def noArgR : Rule → Bool
  | .opNoArgs => false
  | x => plainR x

theorem src_cmp (r : Rule) (h : noArgR r = true) (ht : isTok r = false) : srcE noArgW cmpSpot noArgR (grammar r) := by
  cases r <;> first
    | (exfalso; revert h; decide +kernel)
    | (exfalso; revert ht; decide +kernel)
    | exact src_of_want (by decide +kernel) (by decide +kernel)
    | exact Or.inr ⟨src_of_want (by decide +kernel) (by decide +kernel), Or.inl (rfl : _ = cmpAlts)⟩

/-- No values begin with these letters. -/
theorem tail_no {st : Cursor} {acc : List PV} {fr : VFrame} {pre s : Str} {l : List Ev} {r : Res} {c : Char}
    (h : Big E ⟨false, []⟩ (.seq st cmpTail acc fr) (cur pre (c :: s)) l r) (hl : errorsOf l = []) (hr : r.Calm)
    (hc : c = 'e' ∨ c = 'n') : False := by
  have ho : RuleNo E ⟨false, []⟩ .opComp pre (c :: s) := opComp_no (by
    rw [noHead_cons]
    rcases hc with rfl | rfl <;> decide)
  have hw : ∀ {v a b}, RuleOk E ⟨false, []⟩ .ws pre (c :: s) v a b → a = [] ∧ b = c :: s := by
    intro v a b h
    obtain ⟨h1, -, h3, h4⟩ := rule_ws.1 h
    cases a with
    | nil => exact ⟨rfl, h1.symm⟩
    | cons d a =>
      cases h1
      have := h3 c (by simp)
      exfalso
      rcases hc with rfl | rfl <;> revert this <;> decide
  have hopt : ∀ {fr v a b g}, Ok E ⟨false, []⟩ (.label .operation (.opt (.rule .opComp))) fr pre (c :: s) v a b g →
      a = [] ∧ b = c :: s := by
    intro fr v a b g h
    simp only [ok_label, ok_opt, okR, noR] at h
    obtain ⟨rfl, g', rfl, ⟨_, -, h⟩ | ⟨-, -, rfl, rfl⟩⟩ := h
    · exact ((okR.2 ⟨rfl, h⟩ : Ok E ⟨false, []⟩ (.rule .opComp) [] pre _ _ _ _ []).clash (noR.2 ho)).elim
    · exact ⟨rfl, rfl⟩
  have hv : ∀ {v a b}, ¬ RuleOk E ⟨false, []⟩ .ValueList pre (c :: s) v a b := by
    intro v a b h
    obtain ⟨vs, -, hv⟩ := valueList_values h
    have hs := h.split
    cases hv with
    | one hx =>
      obtain ⟨d, u, rfl, hd⟩ := lit_cons hx
      cases hs
      rcases hc with rfl | rfl <;> revert hd <;> decide
    | list => cases hs; rcases hc with h | h <;> cases h
  have hn : ¬ RuleNo E ⟨false, []⟩ .ValueList pre (c :: s) := by
    intro h
    unfold RuleNo at h
    simp only [show grammar .ValueList = .choice [.action .onValueList2
        (.seq [.lit ['('] false "\"(\"".toList, .rule .ws, .label .first (.rule .Value),
          .label .rest (.star listElem), .rule .ws, .lit [')'] false "\")\"".toList]),
      .action .onValueList17 (.label .value (.rule .Value))] from rfl, no_choice, NoC, no_action, no_label] at h
    exact value_no h.2.1 c s rfl (by rcases hc with rfl | rfl <;> decide)
  cases r with
  | ok v c' g =>
    obtain ⟨a, b, -, h⟩ := okJ_of_big h hl
    rw [okJ_seq, cmpTail] at h
    simp only [OkS, okR] at h
    obtain ⟨_, _, _, _, h1, _, -, _, _, _, _, ⟨-, h2⟩, _, -, _, _, _, _, h3, -⟩ := h
    obtain ⟨rfl, rfl⟩ := hopt h1
    rw [List.append_nil] at h2 h3
    obtain ⟨rfl, rfl⟩ := hw h2
    rw [List.append_nil] at h3
    simp only [ok_label, okR] at h3
    obtain ⟨-, _, -, h3⟩ := h3
    exact hv h3
  | fail d =>
    have h : NoJ E ⟨false, []⟩ (.seq st cmpTail acc fr) pre (c :: s) := ⟨l, d, h, hl⟩
    rw [noJ_seq, cmpTail] at h
    simp only [NoS, okR, no_label, noR] at h
    rcases h with h | ⟨_, _, _, _, h1, h | ⟨_, _, _, _, ⟨-, h2⟩, h | h⟩⟩
    · exact no_opt h
    · obtain ⟨rfl, rfl⟩ := hopt h1
      rw [List.append_nil] at h
      exact rule_ws_no h
    · obtain ⟨rfl, rfl⟩ := hopt h1
      rw [List.append_nil] at h2 h
      obtain ⟨rfl, rfl⟩ := hw h2
      rw [List.append_nil] at h
      exact hn h
    · obtain ⟨_, _, _, _, _, h⟩ := h
      exact h
  | panic _ _ => exact hr.elim

/-- Where an operator without arguments fails, none has begun. -/
theorem noArg_torn {j : Job} {pre s : Str} {l : List Ev} {r : Res} (h : Big E ⟨false, []⟩ j (cur pre s) l r)
    (hj : j.plain = true) (hs : j.src noArgW cmpSpot noArgR) (hl : errorsOf l = []) (hr : r.Calm)
    {i : Bool} {p1 post w : Str} (hm : Ev.mark false i (locAt p1 post) w ∈ l) (hw : noArgW w = true)
    (hp : pre ++ s = p1 ++ post) :
    (w = "\"exists\"".toList → NoHead (· = 'e') post) ∧ (w = "\"null\"".toList → NoHead (· = 'n') post) := by
  obtain ⟨j, p2, s2, l', r', hS, h, hm, -, -, hl, hr, hp2⟩ := h.source src_cmp tokR_noArg rfl rfl hj hs hl hr hw hm
  cases j <;> first | (exact hS.elim) | skip
  rename_i fr es
  have hS : es = cmpAlts := hS
  subst hS
  have hw' : (fun w => !noArgW w) w = false := by simp [hw]
  -- the first alternative makes the test
  have first : ∃ la ra, Big E ⟨false, []⟩ (.expr (.action .onComparison10 (.seq (cmpHead ++ [.label .operation (.rule .opNoArgs)]))) [])
      (cur p2 s2) la ra ∧ Ev.mark false i (locAt p1 post) w ∈ la ∧ errorsOf la = [] ∧ ra.Calm ∧ ((∃ v c g, ra = .ok v c g) ∨
      ∃ lb rb, Big E ⟨false, []⟩ (.expr (.action .onComparison19 (.seq (cmpHead ++ cmpTail))) []) (cur p2 s2) lb rb ∧
        errorsOf lb = [] ∧ rb.Calm) := by
    cases h with
    | choice_ok h => exact ⟨_, _, h, hm, hl, trivial, .inl ⟨_, _, _, rfl⟩⟩
    | choice_panic h => exact hr.elim
    | choice_next h1 h2 =>
      have hb := h1.fail_back
      subst hb
      rw [errorsOf_append_nil] at hl
      cases h2 with
      | choice_ok h2 =>
        rcases List.mem_append.1 hm with hm | hm
        · exact ⟨_, _, h1, hm, hl.1, trivial, .inr ⟨_, _, h2, hl.2, trivial⟩⟩
        · exact (no_mark h2 hm hw' cmpR_noArg (by decide +kernel)).elim
      | choice_next h2 h3 =>
        cases h3
        rw [List.append_nil] at hm hl
        rcases List.mem_append.1 hm with hm | hm
        · exact ⟨_, _, h1, hm, hl.1, trivial, .inr ⟨_, _, h2, hl.2, trivial⟩⟩
        · exact (no_mark h2 hm hw' cmpR_noArg (by decide +kernel)).elim
      | choice_panic h => exact hr.elim
  obtain ⟨la, ra, ha, hm, hla, hra, hb⟩ := first
  obtain ⟨lc, rc, hc, hlc, hrc, heq, hm⟩ := action_marks' ha hla hra hm
  cases hc with
  | seq hc =>
    obtain ⟨acc', fr', a, b, l1, r1, rfl, h1, hm, hsub, hok, hpre⟩ :=
      seq_last hc (mem_tick_mark hm) hw' cmpR_noArg (by decide +kernel)
    have hl1 : errorsOf l1 = [] := errorsOf_sub (errorsOf_cons_tick.1 hlc) hsub
    have place : locAt p1 post = locAt (p2 ++ a) b ∧
        (w = "\"exists\"".toList → ∀ t, b ≠ "exists".toList ++ t) ∧ (w = "\"null\"".toList → ∀ t, b ≠ "null".toList ++ t) := by
      obtain ⟨l2, r2, h, hm⟩ := label_marks h1 hm
      obtain ⟨l3, r3, h, hm⟩ := rule_marks h hm
      obtain ⟨l4, r4, h, hm⟩ := action_marks h hm
      obtain ⟨e, he, l5, r5, h, hm⟩ := alts_marks h hm
      simp only [List.mem_cons, List.not_mem_nil, or_false] at he
      rcases he with rfl | rfl
      · obtain ⟨h1, rfl, h3⟩ := lit_marks h hm
        exact ⟨h1, fun _ => h3 rfl, fun he => absurd he (by decide +kernel)⟩
      · obtain ⟨h1, rfl, h3⟩ := lit_marks h hm
        exact ⟨h1, fun he => absurd he (by decide +kernel), fun _ => h3 rfl⟩
    obtain ⟨h2, h3, h4⟩ := place
    obtain ⟨rfl, rfl⟩ := locAt_same (by rw [← hp, ← hp2, List.append_assoc]) h2
    rcases hb with ⟨v, c, g, rfl⟩ | ⟨lb, rb, hb, hlb, hrb⟩
    · obtain ⟨v1, c1, g1, rfl⟩ : ∃ v c g, r1 = .ok v c g := by
        cases rc with
        | ok v' c' g' => exact hok _ _ _ rfl
        | fail d => cases heq
        | panic _ _ => exact hrc.elim
      obtain ⟨a1, b1, -, k⟩ := okJ_of_big h1 hl1
      obtain ⟨-, _, k⟩ := ok_label.1 k
      obtain ⟨o, -, ho⟩ := opNoArgs_of (okR.1 k).2
      have hs1 := k.split
      constructor
      · rintro hw c' t rfl rfl
        cases ho with
        | exists_ => exact h3 hw b1 hs1
        | null => cases hs1
      · rintro hw c' t rfl rfl
        cases ho with
        | exists_ => cases hs1
        | null => exact h4 hw b1 hs1
    · obtain ⟨l5, r5, h5, hl5, hr5, -⟩ := action_clean hb hlb hrb
      cases h5 with
      | seq h5 =>
        obtain ⟨l6, l7, rfl, h6⟩ := hpre h5
        rw [errorsOf_cons_tick, errorsOf_append_nil] at hl5
        constructor
        · rintro - c' t rfl rfl
          exact tail_no h6 hl5.2 hr5 (.inl rfl)
        · rintro - c' t rfl rfl
          exact tail_no h6 hl5.2 hr5 (.inr rfl)

/-! ### The operator between -/

def betW (w : Str) : Bool := w == "\"><\"".toList

/-- The rules of values and white space. -/
def listR : Rule → Bool
  | .ws | .ValueList | .Value | .BareValue | .BoolValue => true
  | x => valueR x

theorem listR_bet (r : Rule) (h : listR r = true) : wantE (fun w => !betW w) listR (grammar r) = true := by
  cases r <;> first | (exfalso; revert h; decide +kernel) | decide +kernel

theorem tokR_bet (r : Rule) (h : tokR r = true) : wantE (fun w => !betW w) tokR (grammar r) = true := by
  cases r <;> first | (exfalso; revert h; decide +kernel) | decide +kernel

def tailSpot : Spot := ⟨fun _ => False, fun es => es = cmpTail⟩

/-- Rules of queries without the operators that have arguments. -/
def noOpR : Rule → Bool
  | .opComp => false
  | x => plainR x

theorem src_tail (r : Rule) (h : noOpR r = true) (ht : isTok r = false) : srcE betW tailSpot noOpR (grammar r) := by
  cases r <;> first
    | (exfalso; revert h; decide +kernel)
    | (exfalso; revert ht; decide +kernel)
    | exact src_of_want (by decide +kernel) (by decide +kernel)
    | exact Or.inr ⟨src_of_want (by decide +kernel) (by decide +kernel), Or.inr ⟨src_of_want (by decide +kernel) (by decide +kernel),
        Or.inr ⟨Or.inr ⟨src_of_want (by decide +kernel) (by decide +kernel), Or.inr ⟨src_of_want (by decide +kernel) (by decide +kernel),
          Or.inr ⟨src_of_want (by decide +kernel) (by decide +kernel), Or.inr ⟨src_of_want (by decide +kernel) (by decide +kernel),
            Or.inl (rfl : _ = cmpTail)⟩⟩⟩⟩, trivial⟩⟩⟩

theorem choice_fails {ctx : Ctx} {fr : VFrame} {es : List PExpr} {c d : Cursor} {l : List Ev}
    (h : Big E ctx (.choice fr es) c l (.fail d)) : ∀ e ∈ es, ∃ l' d', Big E ctx (.expr e []) c l' (.fail d') ∧
      ∀ ev ∈ l', ev ∈ l := by
  induction es generalizing l with
  | nil => simp
  | cons e es ih =>
    cases h with
    | choice_next h1 h2 =>
      have hb := h1.fail_back
      subst hb
      intro e' he
      rcases List.mem_cons.1 he with rfl | he
      · exact ⟨_, _, h1, fun ev he => List.mem_append_left _ he⟩
      · obtain ⟨l', d', h, hs⟩ := ih h2 e' he
        exact ⟨l', d', h, fun ev he => List.mem_append_right _ (hs ev he)⟩

theorem rep_fails {ctx : Ctx} {e : PExpr} {j : Job} {c d : Cursor} {l : List Ev} {r : Res} {fr : VFrame} {one : Bool}
    {acc : List PV} (h : Big E ctx j c l r) (hj : j = .rep fr e one acc) (hr : r = .fail d) :
    ∃ d', Big E ctx (.expr e []) c l (.fail d') := by
  have key : acc = [] ∧ ∃ d', Big E ctx (.expr e []) c l (.fail d') := by
    induction h generalizing acc with
    | rep_next h1 h2 _ ih =>
      cases hj
      have := (ih rfl hr).1
      simp at this
    | rep_fail h _ => cases hj; exact ⟨rfl, _, h⟩
    | rep_stop h _ _ => cases hr
    | rep_panic h _ => cases hr
    | _ => cases hj
  exact key.2

theorem ok_consumes {ctx : Ctx} {x : Rule} {pre s a b : Str} {v : PV} (h : RuleOk E ctx x pre s v a b)
    (hn : nul (grammar x) = false) : a ≠ [] := by
  rintro rfl
  obtain ⟨g, hs, l, h, -⟩ := h
  have := h.consumes _ _ _ rfl hn
  simp [cur, hs] at this

/-- Where no values are, a character that is not white space was tried. -/
theorem values_mark {fr : VFrame} {pre s : Str} {l : List Ev} {d : Cursor}
    (h : Big E ⟨false, []⟩ (.expr (.label .values (.rule .ValueList)) fr) (cur pre s) l (.fail d)) :
    Ev.mark false false (locAt pre s) "[^ \\n\\t\\r]".toList ∈ l := by
  cases h with
  | label_stop h _ =>
  cases h with
  | rule_stop h _ =>
  cases h with
  | choice h =>
  obtain ⟨l1, d1, h, h1⟩ := choice_fails h (.action .onValueList17 (.label .value (.rule .Value))) (by simp)
  refine List.mem_cons_of_mem _ (List.mem_cons_of_mem _ (List.mem_cons_of_mem _ (h1 _ ?_)))
  cases h with
  | action_stop h _ =>
  cases h with
  | label_stop h _ =>
  cases h with
  | rule_stop h _ =>
  cases h with
  | choice h =>
  obtain ⟨l2, d2, h, h2⟩ := choice_fails h
    (.action .onValue8 (.plus (.cls [' ', '\n', '\t', '\r'] [] false true "[^ \\n\\t\\r]".toList))) (by simp)
  refine List.mem_cons_of_mem _ (List.mem_cons_of_mem _ (List.mem_cons_of_mem _ (List.mem_cons_of_mem _ (h2 _ ?_))))
  cases h with
  | action_stop h _ =>
  cases h with
  | plus h =>
  obtain ⟨d3, h⟩ := rep_fails h rfl rfl
  cases h with
  | cls_fail h => simp [cur]

/-- What the operator between, half written, leads to. -/
theorem bet_tail {st : Cursor} {acc : List PV} {fr : VFrame} {pre r0 t : Str} {l : List Ev} {r : Res}
    (h : Big E ⟨false, []⟩ (.seq st cmpTail acc fr) (cur pre ('>' :: r0)) l r) (hl : errorsOf l = []) (hr : r.Calm)
    (hn : NoHead (· = '<') r0) : Hit E (pre ++ ['>']) ('<' :: t) l ∨ Beyond (pre ++ ['>']) l r := by
  have hop : ∀ {fr v a b g}, Ok E ⟨false, []⟩ (.label .operation (.opt (.rule .opComp))) fr pre ('>' :: r0) v a b g →
      (a = ['>'] ∧ b = r0) ∨ ∃ b', a = ['>', '='] ∧ r0 = '=' :: b' := by
    intro fr v a b g h
    simp only [ok_label, ok_opt, okR, noR] at h
    obtain ⟨-, g', rfl, ⟨_, -, h⟩ | ⟨h, -⟩⟩ := h
    · have hs := h.split
      obtain ⟨o, -, ho⟩ := opComp_of h
      cases ho with
      | eq => exact (ok_consumes h (by decide) rfl).elim
      | lt => cases hs
      | lte => cases hs
      | gt => cases hs; exact .inl ⟨rfl, rfl⟩
      | gte => cases hs; exact .inr ⟨_, rfl, rfl⟩
      | bet => cases hs; exact (hn _ _ rfl rfl).elim
      | sim => cases hs
    · unfold RuleNo at h
      simp only [grammar, no_action, no_choice, NoC, no_seq, NoS, no_cls, no_opt] at h
      rcases h.2.2.1 with h | ⟨_, _, _, _, -, h | ⟨_, _, _, _, -, h⟩⟩
      · have := h '>' r0 rfl
        simp [clsMatch] at this
      · exact h.elim
      · exact h.elim
  cases h with
  | seq_cons h1 h2 =>
    rw [errorsOf_append_nil] at hl
    obtain ⟨a, b, rfl, k1⟩ := okJ_of_big h1 hl.1
    rcases hop k1 with ⟨rfl, rfl⟩ | ⟨b', rfl, rfl⟩
    swap
    · right
      refine Beyond.after (v := .nil) (fr := []) (.inr ⟨_, _, _, rfl, ?_⟩) h2 rfl rfl (by intro _ h; cases h) hl.2 hr
      rw [cur_off, bytesOf_append', bytesOf_append']
      exact Nat.add_lt_add_left (by decide) _
    cases h2 with
    | seq_cons h2 h3 =>
      rw [errorsOf_append_nil] at hl
      obtain ⟨w, b2, rfl, k2⟩ := okJ_of_big h2 hl.2.1
      obtain ⟨rfl, -, hw, hb2⟩ := rule_ws.1 (okR.1 k2).2
      cases h3 with
      | seq_cons h3 h4 =>
        cases h4
        rw [List.append_nil] at hl
        obtain ⟨a3, b3, rfl, k3⟩ := okJ_of_big h3 hl.2.2
        obtain ⟨-, _, k3⟩ := ok_label.1 k3
        have hne := ok_consumes (okR.1 k3).2 (by decide)
        obtain ⟨y, a3, rfl⟩ := List.exists_cons_of_ne_nil hne
        refine .inr (.inr ⟨_, _, _, rfl, ?_⟩)
        rw [cur_off, bytesOf_append' _ (y :: a3), bytesOf_append' _ w]
        have := bytesOf_pos (c := y) (s := a3)
        omega
      | seq_fail h3 =>
        have hm := values_mark h3
        refine Or.imp (fun h => Hit.mono h fun ev he => List.mem_append_right _ (List.mem_append_right _ he))
          (fun h => Beyond.inner h (fun ev he => List.mem_append_right _ (List.mem_append_right _ he)) fun v c fr h => ⟨v, fr, h⟩) ?_
        cases w with
        | nil =>
          left
          rw [List.append_nil] at hm
          refine ⟨_, _, .cls [' ', '\n', '\t', '\r'] [] false true, hm, locAt_off _ _, by decide +kernel, ?_⟩
          exact ⟨'<', t, rfl, by simp⟩
        | cons y w =>
          refine .inr (.inl ⟨_, _, _, hm, ?_⟩)
          rw [locAt_off, bytesOf_append' _ (y :: w)]
          have := bytesOf_pos (c := y) (s := w)
          omega
      | seq_panic h3 => exact hr.elim
    | seq_fail h2 => exact (rule_ws_no (noR.1 ⟨_, _, h2, hl.2⟩)).elim
    | seq_panic h2 => exact hr.elim
  | seq_fail h1 => exact (no_opt (no_label.1 ⟨_, _, h1, hl⟩)).elim
  | seq_panic h1 => exact hr.elim

/-- The operator between, half written. -/
theorem bet_torn {j : Job} {pre s : Str} {l : List Ev} {r : Res} (h : Big E ⟨false, []⟩ j (cur pre s) l r)
    (hj : j.plain = true) (hs : j.src betW tailSpot noOpR) (hl : errorsOf l = []) (hr : r.Calm)
    {i : Bool} {p1 r0 t : Str} (hm : Ev.mark false i (locAt p1 ('>' :: r0)) "\"><\"".toList ∈ l)
    (hp : pre ++ s = p1 ++ '>' :: r0) : Hit E (p1 ++ ['>']) ('<' :: t) l ∨ Beyond (p1 ++ ['>']) l r := by
  have hw : betW "\"><\"".toList = true := by decide +kernel
  obtain ⟨j, p2, s2, l', r', hS, h, hm, hsub, hbey, hl, hr, hp2⟩ := h.source src_tail tokR_bet rfl rfl hj hs hl hr hw hm
  cases j <;> first | (exact hS.elim) | skip
  rename_i st es acc fr
  have hS : es = cmpTail := hS
  subst hS
  have hw' : (fun w => !betW w) "\"><\"".toList = false := by decide +kernel
  have place : locAt p1 ('>' :: r0) = locAt p2 s2 ∧ ∀ b, s2 ≠ ['>', '<'] ++ b := by
    have first : ∃ l1 r1, Big E ⟨false, []⟩ (.expr (.label .operation (.opt (.rule .opComp))) fr) (cur p2 s2) l1 r1 ∧
        Ev.mark false i (locAt p1 ('>' :: r0)) "\"><\"".toList ∈ l1 := by
      cases h with
      | seq_cons h1 h2 =>
        rcases List.mem_append.1 hm with hm | hm
        · exact ⟨_, _, h1, hm⟩
        · exact (no_mark h2 hm hw' listR_bet rfl).elim
      | seq_fail h1 => exact ⟨_, _, h1, hm⟩
      | seq_panic h1 => exact ⟨_, _, h1, hm⟩
    obtain ⟨l1, r1, h, hm⟩ := first
    obtain ⟨l2, r2, h, hm⟩ := label_marks h hm
    obtain ⟨l3, r3, h, hm⟩ := opt_marks h hm
    obtain ⟨l4, r4, h, hm⟩ := rule_marks h hm
    obtain ⟨l5, r5, h, hm⟩ := action_marks h hm
    obtain ⟨e, he, l6, r6, h, hm⟩ := alts_marks h hm
    simp only [List.mem_cons, List.not_mem_nil, or_false] at he
    rcases he with rfl | rfl | rfl
    · obtain ⟨h1, -, h3⟩ := lit_marks h hm
      exact ⟨h1, h3 rfl⟩
    · exact (no_mark h hm hw' listR_bet (by decide +kernel)).elim
    · exact (no_mark h hm hw' listR_bet (by decide +kernel)).elim
  obtain ⟨h1, h2⟩ := place
  obtain ⟨rfl, rfl⟩ := locAt_same (by rw [← hp, ← hp2]) h1
  rcases bet_tail (t := t) h hl hr (by
    rintro c u rfl rfl
    exact h2 u rfl) with h | h
  · exact .inl (h.mono hsub)
  · exact .inr (hbey _ h)

end Aql
