import Verif.Proofs.Peg
/-!
Facts about every run of the parser: cursors, positions of events, encoding errors, consumption, and
enough fuel.
-/

namespace Aql

variable {E : Env}

/-! ### Cursors -/

/-- `c'` is reached from `c` by reading the symbols `t`. -/
inductive Adv : Cursor → List Sym → Cursor → Prop
  | refl (c) : Adv c [] c
  | step {c s u t c'} : c.rest = s :: u → Adv c.next t c' → Adv c (s :: t) c'

theorem next_rest {c : Cursor} {s : Sym} {u : List Sym} (h : c.rest = s :: u) : c.next.rest = u := by
  unfold Cursor.next
  rw [h]

theorem Adv.rest {c c' : Cursor} {t : List Sym} (h : Adv c t c') : c.rest = t ++ c'.rest := by
  induction h with
  | refl => rfl
  | step hr _ ih => rw [hr, List.cons_append, ← ih, next_rest hr]

theorem Adv.trans {a b c : Cursor} {t u : List Sym} (h : Adv a t b) (h' : Adv b u c) :
    Adv a (t ++ u) c := by
  induction h with
  | refl => exact h'
  | step hr _ ih => exact .step hr (ih h')

theorem Adv.one {c : Cursor} {s : Sym} {u : List Sym} (h : c.rest = s :: u) : Adv c [s] c.next :=
  .step h (.refl _)

theorem Adv.snoc {c c' : Cursor} {t u : List Sym} {s : Sym} (h : Adv c t c') (hr : c'.rest = s :: u) :
    Adv c (t ++ [s]) c'.next := h.trans (.one hr)

theorem Adv.length_le {c c' : Cursor} {t : List Sym} (h : Adv c t c') :
    c'.rest.length ≤ c.rest.length := by
  rw [h.rest]; simp

theorem Adv.unique {c a b : Cursor} {t : List Sym} (h : Adv c t a) (h' : Adv c t b) : a = b := by
  induction h with
  | refl => cases h'; rfl
  | step hr _ ih =>
    cases h' with
    | step hr' h' => exact ih h'

/-- The text between cursors. -/
theorem Adv.textOf {c c' : Cursor} {t : List Sym} (h : Adv c t c') :
    textOf c c' = t.map Sym.rune := by
  unfold Aql.textOf
  rw [h.rest]
  simp

/-- Some cursor reached from `c` has this position. -/
def LocFrom (c : Cursor) (p : Loc) : Prop := ∃ t c', Adv c t c' ∧ c'.loc = p

theorem LocFrom.here (c : Cursor) : LocFrom c c.loc := ⟨[], c, .refl c, rfl⟩

theorem LocFrom.after {c c' : Cursor} {t : List Sym} {p : Loc} (h : Adv c t c') (hp : LocFrom c' p) :
    LocFrom c p := by
  obtain ⟨u, d, hd, rfl⟩ := hp
  exact ⟨_, d, h.trans hd, rfl⟩

/-- The position of an event is one of a cursor reached from `c`. -/
def Ev.From (c : Cursor) : Ev → Prop
  | .tick => True
  | .err p _ => LocFrom c p
  | .mark _ _ p _ => LocFrom c p

theorem Ev.From.after {c c' : Cursor} {t : List Sym} {ev : Ev} (h : Adv c t c') (hp : ev.From c') :
    ev.From c := by
  cases ev with
  | tick => trivial
  | err p e => exact LocFrom.after h hp
  | mark a b p w => exact LocFrom.after h hp

/-- The symbol under the cursor, if any, decodes. -/
def HeadOk (c : Cursor) : Prop := ∀ b u, c.rest ≠ .bad b :: u

/-- A decodable symbol. -/
def Sym.IsOk (s : Sym) : Prop := ∃ ch, s = .ok ch

theorem encErr_from {c : Cursor} {ev : Ev} (h : ev ∈ encErr c) : ev.From c := by
  unfold encErr at h
  split at h
  · rw [List.mem_singleton.1 h]; exact LocFrom.here c
  · cases h

theorem errorsOf_append (l l' : List Ev) : errorsOf (l ++ l') = errorsOf l ++ errorsOf l' :=
  List.filterMap_append

theorem errorsOf_tick (l : List Ev) : errorsOf (.tick :: l) = errorsOf l := rfl

theorem errorsOf_mark (l : List Ev) (a b : Bool) (p : Loc) (w : Str) :
    errorsOf (.mark a b p w :: l) = errorsOf l := rfl

theorem headOk_of_encErr {c : Cursor} (h : errorsOf (encErr c) = []) : HeadOk c := by
  intro b u hr
  unfold encErr at h
  rw [hr] at h
  cases h

theorem encErr_of_headOk {c : Cursor} (h : HeadOk c) : encErr c = [] := by
  unfold encErr
  split
  · rename_i b u hr; exact absurd hr (h b u)
  · rfl

/-- Reading with no recorded error keeps to decodable symbols. -/
def CleanStep (l : List Ev) (c : Cursor) (t : List Sym) (c' : Cursor) : Prop :=
  errorsOf l = [] → HeadOk c → HeadOk c' ∧ ∀ s ∈ t, s.IsOk

theorem CleanStep.refl (l : List Ev) (c : Cursor) : CleanStep l c [] c :=
  fun _ h => ⟨h, by intro s hs; cases hs⟩

theorem CleanStep.trans {l l' : List Ev} {a b c : Cursor} {t u : List Sym} (h : CleanStep l a t b)
    (h' : CleanStep l' b u c) : CleanStep (l ++ l') a (t ++ u) c := by
  intro he ha
  rw [errorsOf_append, List.append_eq_nil_iff] at he
  obtain ⟨hb, ht⟩ := h he.1 ha
  obtain ⟨hc, hu⟩ := h' he.2 hb
  refine ⟨hc, ?_⟩
  intro s hs
  rcases List.mem_append.1 hs with hs | hs
  · exact ht s hs
  · exact hu s hs

theorem CleanStep.weaken {l l' : List Ev} {a b : Cursor} {t : List Sym} (h : CleanStep l a t b)
    (hl : errorsOf l' = [] → errorsOf l = []) : CleanStep l' a t b := fun he ha => h (hl he) ha

theorem cleanStep_next {c : Cursor} {s : Sym} {u : List Sym} (hr : c.rest = s :: u) :
    CleanStep (encErr c.next) c [s] c.next := by
  intro he ha
  refine ⟨headOk_of_encErr he, ?_⟩
  intro s' hs
  rw [List.mem_singleton.1 hs]
  cases s with
  | ok ch => exact ⟨ch, rfl⟩
  | bad b => exact absurd hr (ha b u)

/-- What a literal does. -/
theorem litLoop_inv {ic : Bool} {s : Str} {c : Cursor} {l : List Ev} {o : Option Cursor}
    (h : litLoop E ic s c = (l, o)) :
    (∀ ev ∈ l, ev.From c) ∧
      ∀ c', o = some c' → ∃ t, Adv c t c' ∧ CleanStep l c t c' ∧ t.length = s.length := by
  induction s generalizing c l o with
  | nil => cases h; exact ⟨by simp, by intro c' h; cases h; exact ⟨[], .refl c, .refl _ _, rfl⟩⟩
  | cons w ws ih =>
    unfold litLoop at h
    split at h
    · cases h; simp
    · rename_i s u hr
      by_cases hw : (if ic = true then goLower E s.rune else s.rune) = w
      · rw [if_pos hw] at h
        rcases h2 : litLoop E ic ws c.next with ⟨l2, o2⟩
        rw [h2] at h
        cases h
        obtain ⟨ih1, ih2⟩ := ih h2
        refine ⟨?_, ?_⟩
        · intro ev hev
          rcases List.mem_append.1 hev with hev | hev
          · exact (encErr_from hev).after (.one hr)
          · exact (ih1 ev hev).after (.one hr)
        · intro c' hc
          obtain ⟨t, ht, hc, hlen⟩ := ih2 c' hc
          exact ⟨s :: t, .step hr ht, (cleanStep_next hr).trans hc, by simp [hlen]⟩
      · rw [if_neg hw] at h
        cases h; simp

/-- Where a job that fails leaves the cursor. -/
def Job.back (j : Job) (c : Cursor) : Cursor :=
  match j with
  | .seq st _ _ _ => st
  | _ => c

/-- A repetition can only fail before its first iteration. -/
def Job.mayFail : Job → Prop
  | .rep _ _ _ acc => acc = []
  | _ => True

/-- The facts about one result. -/
def ResInv (j : Job) (c : Cursor) (l : List Ev) : Res → Prop
  | .ok _ c' _ => ∃ t, Adv c t c' ∧ CleanStep l c t c'
  | .fail c' => c' = j.back c ∧ j.mayFail
  | .panic _ c' => ∃ t, Adv c t c'

theorem ResInv.stop {j j' : Job} {c : Cursor} {l l' : List Ev} {r : Res} (h : ResInv j c l r)
    (hs : r.stops) (hb : j.back c = j'.back c) (hm : j.mayFail → j'.mayFail) : ResInv j' c l' r := by
  cases r with
  | ok v c' fr => exact hs.elim
  | fail c' => exact ⟨h.1.trans hb, hm h.2⟩
  | panic p c' => exact h

theorem ResInv.tick {j j' : Job} {c : Cursor} {l : List Ev} {r : Res} (h : ResInv j c l r)
    (hb : j.back c = j'.back c) (hm : j.mayFail → j'.mayFail) : ResInv j' c (.tick :: l) r := by
  cases r with
  | ok v c' fr =>
    obtain ⟨t, h1, h2⟩ := h
    exact ⟨t, h1, h2.weaken fun he => he⟩
  | fail c' => exact ⟨h.1.trans hb, hm h.2⟩
  | panic p c' => exact h

theorem ResInv.after {j j' : Job} {c c' : Cursor} {t : List Sym} {l l' : List Ev} {r : Res}
    (ha : Adv c t c') (hc : CleanStep l c t c') (h : ResInv j c' l' r) (hb : j.back c' = j'.back c)
    (hm : j.mayFail → j'.mayFail) : ResInv j' c (l ++ l') r := by
  cases r with
  | ok v d fr =>
    obtain ⟨u, h1, h2⟩ := h
    exact ⟨t ++ u, ha.trans h1, hc.trans h2⟩
  | fail d => exact ⟨h.1.trans hb, hm h.2⟩
  | panic p d =>
    obtain ⟨u, h1⟩ := h
    exact ⟨t ++ u, ha.trans h1⟩

theorem from_tick {c : Cursor} {l : List Ev} (h : ∀ ev ∈ l, ev.From c) :
    ∀ ev ∈ Ev.tick :: l, ev.From c := by
  intro ev hev
  rcases List.mem_cons.1 hev with rfl | hev
  · trivial
  · exact h ev hev

theorem from_append {c : Cursor} {l l' : List Ev} (h : ∀ ev ∈ l, ev.From c)
    (h' : ∀ ev ∈ l', ev.From c) : ∀ ev ∈ l ++ l', ev.From c := by
  intro ev hev
  rcases List.mem_append.1 hev with hev | hev
  · exact h ev hev
  · exact h' ev hev

theorem from_after {c c' : Cursor} {t : List Sym} {l : List Ev} (ha : Adv c t c')
    (h : ∀ ev ∈ l, ev.From c') : ∀ ev ∈ l, ev.From c := fun ev hev => (h ev hev).after ha

theorem from_encErr {c : Cursor} {s : Sym} {u : List Sym} {b b' : Bool} {w : Str}
    (hr : c.rest = s :: u) : ∀ ev ∈ encErr c.next ++ [.mark b b' c.loc w], ev.From c := by
  refine from_append (from_after (.one hr) fun ev h => encErr_from h) ?_
  intro ev hev
  rw [List.mem_singleton.1 hev]
  exact LocFrom.here c

/-- Invariants of every evaluation. -/
theorem Big.inv {ctx : Ctx} {j : Job} {c : Cursor} {l : List Ev} {r : Res}
    (h : Big E ctx j c l r) : (∀ ev ∈ l, ev.From c) ∧ ResInv j c l r := by
  induction h with
  | action_ok h ha ih => exact ⟨from_tick ih.1, ih.2.tick (j' := .expr _ _) rfl fun _ => trivial⟩
  | action_err h ha ih =>
    obtain ⟨t, h1, h2⟩ := ih.2
    refine ⟨from_tick (from_append ih.1 ?_), t, h1, h2.weaken ?_⟩
    · intro ev hev; rw [List.mem_singleton.1 hev]; exact LocFrom.here _
    · intro he
      rw [errorsOf_tick, errorsOf_append, List.append_eq_nil_iff] at he
      exact he.1
  | action_panic h ha ih =>
    obtain ⟨t, h1, h2⟩ := ih.2
    exact ⟨from_tick ih.1, t, h1⟩
  | action_stop h hs ih => exact ⟨from_tick ih.1, ih.2.stop hs rfl fun _ => trivial⟩
  | seq h ih => exact ⟨from_tick ih.1, ih.2.tick rfl fun _ => trivial⟩
  | seq_nil => exact ⟨by simp, [], .refl _, .refl _ _⟩
  | seq_cons h1 h2 ih1 ih2 =>
    obtain ⟨t, ha, hc⟩ := ih1.2
    exact ⟨from_append ih1.1 (from_after ha ih2.1), ih2.2.after ha hc rfl fun _ => trivial⟩
  | seq_fail h ih => exact ⟨ih.1, rfl, trivial⟩
  | seq_panic h ih => exact ⟨ih.1, ih.2⟩
  | choice h ih => exact ⟨from_tick ih.1, ih.2.tick rfl fun _ => trivial⟩
  | choice_nil => exact ⟨by simp, rfl, trivial⟩
  | choice_ok h ih => exact ⟨ih.1, ih.2⟩
  | choice_next h1 h2 ih1 ih2 =>
    obtain ⟨ih1, hb, _⟩ := ih1
    change _ = _ at hb
    subst hb
    exact ⟨from_append ih1 ih2.1, ih2.2.after (.refl _) (.refl _ _) rfl fun _ => trivial⟩
  | choice_panic h ih => exact ⟨ih.1, ih.2⟩
  | label_ok h ih => exact ⟨from_tick ih.1, ih.2.tick (j' := .expr _ _) rfl fun _ => trivial⟩
  | label_stop h hs ih => exact ⟨from_tick ih.1, ih.2.stop hs rfl fun _ => trivial⟩
  | rule_ok h ih => exact ⟨from_tick ih.1, ih.2.tick (j' := .expr _ _) rfl fun _ => trivial⟩
  | rule_stop h hs ih => exact ⟨from_tick ih.1, ih.2.stop hs rfl fun _ => trivial⟩
  | @lit_ok _ s _ _ _ _ _ _ h =>
    obtain ⟨h1, h2⟩ := litLoop_inv h
    obtain ⟨t, ha, hc, _⟩ := h2 _ rfl
    refine ⟨from_tick (from_append h1 ?_), t, ha, hc.weaken ?_⟩
    · intro ev hev; rw [List.mem_singleton.1 hev]; exact LocFrom.here _
    · intro he
      rw [errorsOf_tick, errorsOf_append, List.append_eq_nil_iff] at he
      exact he.1
  | lit_fail h =>
    obtain ⟨h1, _⟩ := litLoop_inv h
    refine ⟨from_tick (from_append h1 ?_), rfl, trivial⟩
    intro ev hev; rw [List.mem_singleton.1 hev]; exact LocFrom.here _
  | cls_ok hr hm =>
    refine ⟨from_tick (from_encErr hr), _, .one hr, (cleanStep_next hr).weaken ?_⟩
    intro he
    rw [errorsOf_tick, errorsOf_append, List.append_eq_nil_iff] at he
    exact he.1
  | cls_fail h =>
    refine ⟨from_tick ?_, rfl, trivial⟩
    intro ev hev; rw [List.mem_singleton.1 hev]; exact LocFrom.here _
  | any_ok hr =>
    refine ⟨from_tick (from_encErr hr), _, .one hr, (cleanStep_next hr).weaken ?_⟩
    intro he
    rw [errorsOf_tick, errorsOf_append, List.append_eq_nil_iff] at he
    exact he.1
  | any_eof hr =>
    refine ⟨from_tick ?_, rfl, trivial⟩
    intro ev hev; rw [List.mem_singleton.1 hev]; exact LocFrom.here _
  | not_ok h ih => exact ⟨from_tick ih.1, [], .refl _, .refl _ _⟩
  | not_fail h ih => exact ⟨from_tick ih.1, rfl, trivial⟩
  | not_panic h ih => exact ⟨from_tick ih.1, ih.2⟩
  | star h ih => exact ⟨from_tick ih.1, ih.2.tick rfl fun _ => trivial⟩
  | plus h ih => exact ⟨from_tick ih.1, ih.2.tick rfl fun _ => trivial⟩
  | rep_next h1 h2 ih1 ih2 =>
    obtain ⟨t, ha, hc⟩ := ih1.2
    refine ⟨from_append ih1.1 (from_after ha ih2.1), ?_⟩
    rename_i r
    cases r with
    | ok v d fr =>
      obtain ⟨u, h1, h2⟩ := ih2.2
      exact ⟨t ++ u, ha.trans h1, hc.trans h2⟩
    | fail d => exact absurd ih2.2.2 (by simp [Job.mayFail])
    | panic p d =>
      obtain ⟨u, h1⟩ := ih2.2
      exact ⟨t ++ u, ha.trans h1⟩
  | rep_stop h hc ih =>
    obtain ⟨ih1, hb, _⟩ := ih
    change _ = _ at hb
    subst hb
    exact ⟨ih1, [], .refl _, .refl _ _⟩
  | rep_fail h ih => exact ⟨ih.1, ih.2.1, rfl⟩
  | rep_panic h ih => exact ⟨ih.1, ih.2⟩
  | opt_ok h ih => exact ⟨from_tick ih.1, ih.2.tick (j' := .expr _ _) rfl fun _ => trivial⟩
  | opt_none h ih =>
    obtain ⟨ih1, hb, _⟩ := ih
    change _ = _ at hb
    subst hb
    exact ⟨from_tick ih1, [], .refl _, .refl _ _⟩
  | opt_panic h ih => exact ⟨from_tick ih.1, ih.2⟩
  | recover h ih => exact ⟨from_tick ih.1, ih.2.tick rfl fun _ => trivial⟩
  | throw h ih => exact ⟨from_tick ih.1, ih.2.tick rfl fun _ => trivial⟩
  | throw_nil => exact ⟨by simp, rfl, trivial⟩
  | throw_skip hne h ih => exact ih
  | throw_ok h ih => exact ⟨ih.1, ih.2⟩
  | throw_next h1 h2 ih1 ih2 =>
    obtain ⟨ih1, hb, _⟩ := ih1
    change _ = _ at hb
    subst hb
    exact ⟨from_append ih1 ih2.1, ih2.2.after (.refl _) (.refl _ _) rfl fun _ => trivial⟩
  | throw_panic h ih => exact ⟨ih.1, ih.2⟩
  | state =>
    refine ⟨?_, [], .refl _, .refl _ _⟩
    intro ev hev
    simp only [List.mem_cons, List.not_mem_nil, or_false] at hev
    rcases hev with rfl | rfl
    · trivial
    · exact LocFrom.here _

theorem Big.ok_adv {ctx : Ctx} {j : Job} {c c' : Cursor} {l : List Ev} {v : PV} {fr : VFrame}
    (h : Big E ctx j c l (.ok v c' fr)) : ∃ t, Adv c t c' := by
  obtain ⟨t, h, _⟩ := h.inv.2
  exact ⟨t, h⟩

theorem Big.fail_back {ctx : Ctx} {e : PExpr} {fr : VFrame} {c c' : Cursor} {l : List Ev}
    (h : Big E ctx (.expr e fr) c l (.fail c')) : c' = c := h.inv.2.1

/-! ### Consumption -/

/-- Rules that can match without reading. -/
def rnul : Rule → Bool
  | .ws | .EOF | .ErrUntermStr | .ErrUntermRegex | .EndingQuote | .EndingSlash => true
  | _ => false

mutual
/-- May the expression match without reading? -/
def nul : PExpr → Bool
  | .action _ e => nul e
  | .seq es => nulAll es
  | .choice es => nulAny es
  | .label _ e => nul e
  | .rule r => rnul r
  | .lit s _ _ => s.isEmpty
  | .cls .. => false
  | .any => false
  | .not _ => true
  | .star _ => true
  | .plus e => nul e
  | .opt _ => true
  | .recover _ e _ => nul e
  | .throw _ => true
  | .state _ => true
def nulAll : List PExpr → Bool
  | [] => true
  | e :: es => nul e && nulAll es
def nulAny : List PExpr → Bool
  | [] => false
  | e :: es => nul e || nulAny es
end

theorem rnul_ok (r : Rule) : nul (grammar r) = true → rnul r = true := by
  cases r <;> decide

def Job.nul : Job → Bool
  | .expr e _ => Aql.nul e
  | .seq _ es _ _ => nulAll es
  | .choice _ es => nulAny es
  | .rep _ e one acc => !(one && acc.isEmpty) || Aql.nul e
  | .throw .. => true

/-- A success of an expression that is not nullable reads something. -/
theorem Big.consumes {ctx : Ctx} {j : Job} {c : Cursor} {l : List Ev} {r : Res}
    (h : Big E ctx j c l r) : ∀ v c' fr, r = .ok v c' fr → j.nul = false →
      c'.rest.length < c.rest.length := by
  induction h with
  | action_ok h ha ih => intro v c' fr hr hn; cases hr; exact ih _ _ _ rfl hn
  | action_err h ha ih => intro v c' fr hr hn; cases hr; exact ih _ _ _ rfl hn
  | action_panic h ha ih => intro v c' fr hr hn; cases hr
  | action_stop h hs ih => intro v c' fr hr hn; subst hr; exact hs.elim
  | seq h ih => intro v c' fr hr hn; exact ih _ _ _ hr hn
  | seq_nil => intro v c' fr hr hn; cases hn
  | seq_cons h1 h2 ih1 ih2 =>
    intro v c' fr hr hn
    subst hr
    obtain ⟨t, ht⟩ := h1.ok_adv
    obtain ⟨u, hu⟩ := h2.ok_adv
    have l1 := ht.length_le
    have l2 := hu.length_le
    simp only [Job.nul, nulAll, Bool.and_eq_false_iff] at hn
    rcases hn with hn | hn
    · have := ih1 _ _ _ rfl hn; omega
    · have := ih2 _ _ _ rfl hn; omega
  | seq_fail h ih => intro v c' fr hr; cases hr
  | seq_panic h ih => intro v c' fr hr; cases hr
  | choice h ih => intro v c' fr hr hn; exact ih _ _ _ hr hn
  | choice_nil => intro v c' fr hr; cases hr
  | choice_ok h ih =>
    intro v c' fr hr hn; cases hr
    simp only [Job.nul, nulAny, Bool.or_eq_false_iff] at hn
    exact ih _ _ _ rfl hn.1
  | choice_next h1 h2 ih1 ih2 =>
    intro v c' fr hr hn
    simp only [Job.nul, nulAny, Bool.or_eq_false_iff] at hn
    have := h1.fail_back
    subst this
    exact ih2 _ _ _ hr hn.2
  | choice_panic h ih => intro v c' fr hr; cases hr
  | label_ok h ih => intro v c' fr hr hn; cases hr; exact ih _ _ _ rfl hn
  | label_stop h hs ih => intro v c' fr hr hn; subst hr; exact hs.elim
  | @rule_ok _ x _ _ _ _ _ _ h ih =>
    intro v c' fr hr hn; cases hr
    refine ih _ _ _ rfl ?_
    by_contra hc
    simp only [Bool.not_eq_false] at hc
    have := rnul_ok x hc
    simp only [Job.nul, Aql.nul] at hn
    rw [this] at hn
    cases hn
  | rule_stop h hs ih => intro v c' fr hr hn; subst hr; exact hs.elim
  | @lit_ok _ s _ _ _ _ _ _ h =>
    intro v c' fr hr hn; cases hr
    obtain ⟨t, ha, _, hl⟩ := (litLoop_inv h).2 _ rfl
    rw [ha.rest]
    cases s with
    | nil => cases hn
    | cons w ws => simp [hl]
  | lit_fail h => intro v c' fr hr; cases hr
  | cls_ok h hm =>
    intro v c' fr hr hn; cases hr
    rw [(Adv.one h).rest]; simp
  | cls_fail h => intro v c' fr hr; cases hr
  | any_ok h =>
    intro v c' fr hr hn; cases hr
    rw [(Adv.one h).rest]; simp
  | any_eof h => intro v c' fr hr; cases hr
  | not_ok h ih => intro v c' fr hr hn; cases hn
  | not_fail h ih => intro v c' fr hr; cases hr
  | not_panic h ih => intro v c' fr hr; cases hr
  | star h ih => intro v c' fr hr hn; cases hn
  | plus h ih => intro v c' fr hr hn; exact ih _ _ _ hr (by simpa [Job.nul, Aql.nul] using hn)
  | rep_next h1 h2 ih1 ih2 =>
    intro v c' fr hr hn
    subst hr
    obtain ⟨u, hu⟩ := h2.ok_adv
    have l2 := hu.length_le
    simp only [Job.nul, Bool.or_eq_false_iff] at hn
    have := ih1 _ _ _ rfl hn.2
    omega
  | rep_stop h hc ih =>
    intro v c' fr hr hn
    exfalso
    apply hc
    simp only [Job.nul, Bool.or_eq_false_iff, Bool.not_eq_eq_eq_not, Bool.not_false,
      Bool.and_eq_true, List.isEmpty_iff] at hn
    exact hn.1
  | rep_fail h ih => intro v c' fr hr; cases hr
  | rep_panic h ih => intro v c' fr hr; cases hr
  | opt_ok h ih => intro v c' fr hr hn; cases hn
  | opt_none h ih => intro v c' fr hr hn; cases hn
  | opt_panic h ih => intro v c' fr hr; cases hr
  | recover h ih => intro v c' fr hr hn; exact ih _ _ _ hr hn
  | throw h ih => intro v c' fr hr hn; cases hn
  | throw_nil => intro v c' fr hr; cases hr
  | throw_skip hne h ih => intro v c' fr hr hn; cases hn
  | throw_ok h ih => intro v c' fr hr hn; cases hn
  | throw_next h1 h2 ih1 ih2 => intro v c' fr hr hn; cases hn
  | throw_panic h ih => intro v c' fr hr; cases hr
  | state => intro v c' fr hr hn; cases hn

/-! ### Fuel -/

/-- Depth of the evaluation of a rule without reading. -/
def rcost : Rule → Nat
  | .Start => 39 | .Query => 35 | .OrClause => 31 | .AndClause => 26 | .NotClause => 21
  | .Comparison => 19 | .Field => 14 | .FieldPiece => 10 | .UnquotedFieldPiece => 4
  | .QuotedFieldPiece => 8 | .Star => 3 | .ValueList => 22 | .Value => 18 | .QuotedValue => 5
  | .EndingQuote => 5 | .EscapedChar => 2 | .EscapeSequence => 5 | .SingleCharEscape => 2
  | .UnicodeEscape => 3 | .HexDigit => 2 | .ValueChars => 2 | .RegexValue => 5 | .RegexChar => 7
  | .RegexEscape => 7 | .EndingSlash => 5 | .BareValue => 13 | .BoolValue => 4 | .FloatValue => 5
  | .IntValue => 5 | .IPValue => 6 | .Octet => 3 | .CIDRBlock => 3 | .Timestamp => 11
  | .dateTime => 8 | .fullDate => 6 | .dateFullyear => 4 | .dateMonth => 4 | .dateMday => 4
  | .timeHour => 4 | .timeMinute => 4 | .timeSecond => 4 | .timeSecfrac => 3 | .timeNumoffset => 4
  | .timeOffset => 6 | .partialTime => 6 | .fullTime => 8 | .Digit4 => 3 | .Digit2 => 3
  | .logicalOR => 2 | .logicalAND => 2 | .logicalNOT => 4 | .opNoArgs => 4 | .opComp => 5
  | .ws => 3 | .space => 3 | .EOL => 2 | .EOF => 3 | .ErrUntermStr => 2 | .ErrUntermRegex => 2

mutual
/-- Depth of the evaluation of an expression until something is read. -/
def cost : PExpr → Nat
  | .action _ e => cost e + 1
  | .seq es => costSeq es + 1
  | .choice es => costMax es + 1
  | .label _ e => cost e + 1
  | .rule r => rcost r
  | .lit .. => 1
  | .cls .. => 1
  | .any => 1
  | .not e => cost e + 1
  | .star e => cost e + 1
  | .plus e => cost e + 1
  | .opt e => cost e + 1
  | .recover _ e _ => cost e + 1
  | .throw _ => 3
  | .state _ => 1
def costSeq : List PExpr → Nat
  | [] => 0
  | e :: es => max (cost e) (if nul e then costSeq es else 0)
def costMax : List PExpr → Nat
  | [] => 0
  | e :: es => max (cost e) (costMax es)
end

mutual
/-- Loops read something, all depths are below 40, recovery expressions have depth 2. -/
def wf : PExpr → Bool
  | .action _ e => wf e
  | .seq es => wfAll es
  | .choice es => wfAll es
  | .label _ e => wf e
  | .not e => wf e
  | .star e => wf e && !nul e && cost e < 40
  | .plus e => wf e && !nul e && cost e < 40
  | .opt e => wf e
  | .recover _ e h => wf e && wf h && cost h ≤ 2
  | _ => true
def wfAll : List PExpr → Bool
  | [] => true
  | e :: es => wf e && cost e < 40 && wfAll es
end

theorem grammar_wf (r : Rule) : wf (grammar r) = true := by cases r <;> decide

theorem grammar_cost (r : Rule) : cost (grammar r) + 1 ≤ rcost r := by cases r <;> decide

theorem cost_pos (e : PExpr) : 1 ≤ cost e := by
  cases e with
  | rule r => have := grammar_cost r; simp only [cost]; omega
  | _ => simp [cost]

/-- The recovery stack holds shallow expressions. -/
def CtxOk (ctx : Ctx) : Prop := ∀ p ∈ ctx.recov, wf p.2 = true ∧ cost p.2 ≤ 2

/-- Enough fuel for `e` at `c`. -/
def Enough (f : Nat) (e : PExpr) (c : Cursor) : Prop := c.rest.length * 40 + cost e ≤ f

theorem andThen_ne_oof {o : Out} {k : Res → Out} (h : o ≠ .oof)
    (hk : ∀ l r, o = .done l r → k r ≠ .oof) : o.andThen k ≠ .oof := by
  rcases o with _ | ⟨l, r⟩
  · exact absurd rfl h
  · have := hk l r rfl
    unfold Out.andThen
    dsimp only
    rcases hr : k r with _ | ⟨l', r'⟩
    · exact absurd hr this
    · intro h; cases h

theorem run_enough (f : Nat) : ∀ ctx e fr c, wf e = true → CtxOk ctx → Enough f e c →
    run E f ctx e fr c ≠ .oof := by
  induction f with
  | zero =>
    intro ctx e fr c _ _ h
    have := cost_pos e
    unfold Enough at h
    omega
  | succ f ih =>
    intro ctx e fr c hw hctx hen
    have hback : ∀ {ctx e fr c l c'}, run E f ctx e fr c = .done l (.fail c') → c' = c :=
      fun h => (run_big f _ _ _ _ _ _ h).fail_back
    have hlen : ∀ {ctx e fr c l v c' fr'}, run E f ctx e fr c = .done l (.ok v c' fr') →
        c'.rest.length ≤ c.rest.length := by
      intro ctx e fr c l v c' fr' h
      obtain ⟨t, ht⟩ := (run_big f _ _ _ _ _ _ h).ok_adv
      exact ht.length_le
    have hlt : ∀ {ctx e fr c l v c' fr'}, run E f ctx e fr c = .done l (.ok v c' fr') →
        nul e = false → c'.rest.length < c.rest.length :=
      fun h hn => (run_big f _ _ _ _ _ _ h).consumes _ _ _ rfl hn
    refine andThen_ne_oof (by intro h; cases h) ?_
    intro l0 r0 _
    unfold Enough at hen ih
    cases e with
    | action a e =>
      refine andThen_ne_oof (ih _ _ _ _ hw hctx (by simp only [cost] at hen; omega)) ?_
      intro l r hr
      cases r with
      | ok v c' fr' =>
        dsimp only [actStep]
        rcases runAct E a fr' (textOf c c') c.loc with p | ⟨v', _ | er⟩ <;> intro h <;> cases h
      | fail c' => intro h; cases h
      | panic p c' => intro h; cases h
    | seq es =>
      have key : ∀ (es : List PExpr) acc fr c', wfAll es = true →
          (c'.rest.length * 40 + costSeq es ≤ f ∨ c'.rest.length < c.rest.length) →
          c'.rest.length ≤ c.rest.length →
          seqLoop (run E f) ctx c es acc fr c' ≠ .oof := by
        intro es
        induction es with
        | nil => intro acc fr c' _ _ _ h; cases h
        | cons e es ihs =>
          intro acc fr c' hw hc hle
          simp only [wfAll, Bool.and_eq_true, decide_eq_true_eq] at hw
          simp only [cost, costSeq] at hen hc
          refine andThen_ne_oof (ih _ _ _ _ hw.1.1 hctx (by omega)) ?_
          intro l r hr
          cases r with
          | ok v d fr' =>
            have h1 := hlen hr
            refine ihs _ _ _ hw.2 ?_ (by omega)
            rcases hn : nul e with _ | _
            · have h2 := hlt hr hn; right; omega
            · rw [hn, if_pos rfl] at hc
              rcases hc with hc | hc
              · left; omega
              · right; omega
          | fail d => intro h; cases h
          | panic p d => intro h; cases h
      exact key es [] fr c hw (Or.inl (by simp only [cost] at hen; omega)) le_rfl
    | choice es =>
      have key : ∀ (es : List PExpr), wfAll es = true → c.rest.length * 40 + costMax es ≤ f →
          choiceLoop (run E f) ctx fr es c ≠ .oof := by
        intro es
        induction es with
        | nil => intro _ _ h; cases h
        | cons e es ihs =>
          intro hw hc
          simp only [wfAll, Bool.and_eq_true, decide_eq_true_eq] at hw
          simp only [costMax] at hc
          refine andThen_ne_oof (ih _ _ _ _ hw.1.1 hctx (by omega)) ?_
          intro l r hr
          cases r with
          | ok v d fr' => intro h; cases h
          | fail d =>
            have := hback hr
            subst this
            exact ihs hw.2 (by omega)
          | panic p d => intro h; cases h
      exact key es hw (by simp only [cost] at hen; omega)
    | label x e =>
      refine andThen_ne_oof (ih _ _ _ _ hw hctx (by simp only [cost] at hen; omega)) ?_
      intro l r hr
      cases r <;> intro h <;> cases h
    | rule x =>
      have := grammar_cost x
      refine andThen_ne_oof (ih _ _ _ _ (grammar_wf x) hctx (by simp only [cost] at hen; omega)) ?_
      intro l r hr
      cases r <;> intro h <;> cases h
    | lit s ic w =>
      dsimp only [step]
      rcases litLoop E ic s c with ⟨l', _ | c'⟩ <;> intro h <;> cases h
    | cls chars ranges ic inv w =>
      dsimp only [step]
      split
      · intro h; cases h
      · split <;> intro h <;> cases h
    | any =>
      dsimp only [step]
      split <;> intro h <;> cases h
    | not e =>
      refine andThen_ne_oof (ih _ _ _ _ hw hctx (by simp only [cost] at hen; omega)) ?_
      intro l r hr
      cases r <;> intro h <;> cases h
    | star e =>
      simp only [wf, Bool.and_eq_true, Bool.not_eq_true', decide_eq_true_eq] at hw
      simp only [cost] at hen
      have hpos := cost_pos e
      have key : ∀ (k : Nat) acc c', c'.rest.length < k → c'.rest.length ≤ c.rest.length →
          repLoop (run E f) ctx fr e false k acc c' ≠ .oof := by
        intro k
        induction k with
        | zero => intro acc c' h; omega
        | succ k ihk =>
          intro acc c' hk hle
          refine andThen_ne_oof (ih _ _ _ _ hw.1.1 hctx (by omega)) ?_
          intro l r hr
          cases r with
          | ok v d fr' =>
            have := hlt hr hw.1.2
            exact ihk _ _ (by omega) (by omega)
          | fail d => intro h; cases h
          | panic p d => intro h; cases h
      exact key f [] c (by omega) le_rfl
    | plus e =>
      simp only [wf, Bool.and_eq_true, Bool.not_eq_true', decide_eq_true_eq] at hw
      simp only [cost] at hen
      have hpos := cost_pos e
      have key : ∀ (k : Nat) acc c', c'.rest.length < k → c'.rest.length ≤ c.rest.length →
          repLoop (run E f) ctx fr e true k acc c' ≠ .oof := by
        intro k
        induction k with
        | zero => intro acc c' h; omega
        | succ k ihk =>
          intro acc c' hk hle
          refine andThen_ne_oof (ih _ _ _ _ hw.1.1 hctx (by omega)) ?_
          intro l r hr
          cases r with
          | ok v d fr' =>
            have := hlt hr hw.1.2
            exact ihk _ _ (by omega) (by omega)
          | fail d => intro h; cases h
          | panic p d => intro h; cases h
      exact key f [] c (by omega) le_rfl
    | opt e =>
      refine andThen_ne_oof (ih _ _ _ _ hw hctx (by simp only [cost] at hen; omega)) ?_
      intro l r hr
      cases r <;> intro h <;> cases h
    | recover x e h =>
      simp only [wf, Bool.and_eq_true, decide_eq_true_eq] at hw
      refine ih _ _ _ _ hw.1.1 ?_ (by simp only [cost] at hen; omega)
      intro p hp
      rcases List.mem_cons.1 hp with rfl | hp
      · exact ⟨hw.1.2, hw.2⟩
      · exact hctx p hp
    | throw x =>
      simp only [cost] at hen
      have key : ∀ (rs : List (FailLabel × PExpr)), (∀ p ∈ rs, wf p.2 = true ∧ cost p.2 ≤ 2) →
          throwLoop (run E f) ctx x fr rs c ≠ .oof := by
        intro rs
        induction rs with
        | nil => intro _ h; cases h
        | cons p rs ihs =>
          intro hrs
          obtain ⟨y, e⟩ := p
          have hp := hrs (y, e) (List.mem_cons_self ..)
          have ihs := ihs fun p hp => hrs p (List.mem_cons_of_mem _ hp)
          unfold throwLoop
          split
          · refine andThen_ne_oof (ih _ _ _ _ hp.1 hctx (by have := hp.2; dsimp only at this; omega)) ?_
            intro l r hr
            cases r with
            | ok v d fr' => intro h; cases h
            | fail d =>
              have := hback hr
              subst this
              exact ihs
            | panic p d => intro h; cases h
          · exact ihs
      exact key _ hctx
    | state s => intro h; cases h

/-- The run of the start rule has enough fuel. -/
theorem runStart_done (input : List Sym) : ∃ l r, runStart E input = .done (encErr (.init input) ++ l) r ∧
    Big E ⟨false, []⟩ (.expr (grammar .Start) []) (.init input) l r := by
  have h : run E (depthBound input.length) ⟨false, []⟩ (grammar .Start) [] (.init input) ≠ .oof := by
    refine run_enough _ _ _ _ _ (grammar_wf _) (by intro p hp; cases hp) ?_
    have : cost (grammar .Start) ≤ 39 := by decide
    simp only [Enough, depthBound, Cursor.init]
    omega
  rcases hr : run E (depthBound input.length) ⟨false, []⟩ (grammar .Start) [] (.init input) with
    _ | ⟨l, r⟩
  · exact absurd hr h
  · refine ⟨l, r, ?_, run_big _ _ _ _ _ _ _ hr⟩
    exact andThen_of rfl hr

end Aql
