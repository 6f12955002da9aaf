import Verif.Proofs.Parser
/-!
Evaluation without recorded errors on a decodable text: what an expression reads (`Ok`) and when it
does not match (`No`), as equations for each kind of expression.
-/

namespace Aql

variable {E : Env}

/-- Position after `pre` when `s` follows. -/
def locAt (pre : Str) : Str → Loc
  | '\n' :: _ => ⟨Spec.lineOf pre + 1, 0, Spec.bytesOf pre⟩
  | _ => ⟨Spec.lineOf pre, Spec.colOf pre, Spec.bytesOf pre⟩

/-- The cursor after `pre` when `s` follows. -/
def cur (pre s : Str) : Cursor := ⟨s.map .ok, locAt pre s⟩

theorem atNewline_map {s : Str} : atNewline (s.map .ok) ↔ ∃ t, s = '\n' :: t := by
  rw [atNewline_iff]
  constructor
  · rintro ⟨v, hv⟩
    cases s with
    | nil => cases hv
    | cons c s => cases hv; exact ⟨s, rfl⟩
  · rintro ⟨t, rfl⟩; exact ⟨t.map .ok, rfl⟩

theorem locAt_other {pre s : Str} (h : ∀ t, s ≠ '\n' :: t) :
    locAt pre s = ⟨Spec.lineOf pre, Spec.colOf pre, Spec.bytesOf pre⟩ := by
  unfold locAt
  split
  · exact absurd rfl (h _)
  · rfl

theorem width_sum (s : Str) : ((s.map Sym.ok).map Sym.width).sum = Spec.bytesOf s := by
  unfold Spec.bytesOf
  rw [List.map_map]
  rfl

theorem runes_ok (s : Str) : runes (s.map .ok) = s := by
  unfold runes
  rw [List.map_map]
  exact List.map_id s

/-- The cursor is determined by the text before and after. -/
theorem cur_of_locIs {pre s : Str} {c : Cursor} (h : LocIs (pre.map .ok) c) (hr : c.rest = s.map .ok) :
    c = cur pre s := by
  obtain ⟨h1, h2, h3⟩ := h
  rw [width_sum] at h1
  rw [runes_ok, hr] at h2 h3
  obtain ⟨rest, line, col, off⟩ := c
  dsimp only at h1 h2 h3 hr
  unfold cur
  subst hr
  by_cases hn : ∃ t, s = '\n' :: t
  · obtain ⟨h4, h5⟩ := h2 (atNewline_map.2 hn)
    obtain ⟨t, rfl⟩ := hn
    rw [h1, h4, h5]; rfl
  · obtain ⟨h4, h5⟩ := h3 (fun h => hn (atNewline_map.1 h))
    rw [locAt_other (by push Not at hn; exact hn), h1, h4, h5]

theorem cur_init (s : Str) : Cursor.init (s.map .ok) = cur [] s :=
  cur_of_locIs (locIs_init _) rfl

theorem locIs_cur (pre s : Str) : LocIs (pre.map .ok) (cur pre s) := by
  unfold LocIs
  rw [runes_ok, width_sum]
  by_cases hn : ∃ t, s = '\n' :: t
  · have := atNewline_map.2 hn
    obtain ⟨t, rfl⟩ := hn
    exact ⟨rfl, fun _ => ⟨rfl, rfl⟩, fun h => absurd this h⟩
  · unfold cur
    dsimp only
    rw [locAt_other (by push Not at hn; exact hn)]
    exact ⟨rfl, fun h => absurd (atNewline_map.1 h) hn, fun _ => ⟨rfl, rfl⟩⟩

theorem cur_next (pre : Str) (x : Char) (s : Str) : (cur pre (x :: s)).next = cur (pre ++ [x]) s := by
  refine cur_of_locIs ?_ (next_rest rfl)
  rw [List.map_append]
  exact (locIs_cur pre (x :: s)).next rfl

theorem encErr_cur (pre s : Str) : encErr (cur pre s) = [] := by
  cases s <;> rfl

theorem map_ok_inj {a b : Str} (h : a.map Sym.ok = b.map Sym.ok) : a = b := by
  have := congrArg runes h
  rwa [runes_ok, runes_ok] at this

/-- What can be reached from a clean cursor. -/
theorem adv_cur {pre s : Str} {t : List Sym} {c' : Cursor} (h : Adv (cur pre s) t c') :
    ∃ a b, s = a ++ b ∧ c' = cur (pre ++ a) b := by
  have hr := h.rest
  change s.map Sym.ok = t ++ c'.rest at hr
  obtain ⟨a, b, rfl, rfl, hb⟩ := List.map_eq_append_iff.1 hr
  refine ⟨a, b, rfl, cur_of_locIs ?_ hb.symm⟩
  rw [List.map_append]
  exact LocIs.adv h (locIs_cur _ _)

theorem textOf_cur (pre a b : Str) : textOf (cur pre (a ++ b)) (cur (pre ++ a) b) = a := by
  unfold textOf cur
  simp only [List.map_append, List.length_append, List.length_map, Nat.add_sub_cancel]
  rw [List.take_left' (by simp)]
  exact runes_ok a

/-- Matches without an error, reading `a`. -/
def OkJ (E : Env) (ctx : Ctx) (j : Job) (pre s : Str) (v : PV) (a b : Str) (fr' : VFrame) : Prop :=
  s = a ++ b ∧ ∃ l, Big E ctx j (cur pre s) l (.ok v (cur (pre ++ a) b) fr') ∧ errorsOf l = []

/-- Does not match, without an error. -/
def NoJ (E : Env) (ctx : Ctx) (j : Job) (pre s : Str) : Prop :=
  ∃ l d, Big E ctx j (cur pre s) l (.fail d) ∧ errorsOf l = []

/-- `OkJ` of an expression. -/
abbrev Ok (E : Env) (ctx : Ctx) (e : PExpr) (fr : VFrame) := OkJ E ctx (.expr e fr)

/-- `NoJ` of an expression. The frame does not matter. -/
abbrev No (E : Env) (ctx : Ctx) (e : PExpr) (fr : VFrame) := NoJ E ctx (.expr e fr)

variable {ctx : Ctx} {pre s a b : Str} {v : PV} {fr fr' : VFrame}

theorem okJ_of_big {j : Job} {l : List Ev} {c' : Cursor} (h : Big E ctx j (cur pre s) l (.ok v c' fr'))
    (hl : errorsOf l = []) : ∃ a b, c' = cur (pre ++ a) b ∧ OkJ E ctx j pre s v a b fr' := by
  obtain ⟨t, ht⟩ := h.ok_adv
  obtain ⟨a, b, hs, hc⟩ := adv_cur ht
  subst hc
  exact ⟨a, b, rfl, hs, l, h, hl⟩

theorem cur_cancel {a' b' : Str} (hs : s = a ++ b) (hs' : s = a' ++ b')
    (h : cur (pre ++ a) b = cur (pre ++ a') b') : a = a' ∧ b = b' := by
  have hb : b = b' := map_ok_inj (congrArg Cursor.rest h)
  subst hb
  exact ⟨List.append_cancel_right (hs.symm.trans hs'), rfl⟩

/-- Matching is deterministic. -/
theorem Ok.det {e : PExpr} {v' : PV} {a' b' : Str} {g : VFrame} (h : Ok E ctx e fr pre s v a b fr')
    (h' : Ok E ctx e fr pre s v' a' b' g) : v = v' ∧ a = a' ∧ b = b' ∧ fr' = g := by
  obtain ⟨hs, l, h, _⟩ := h
  obtain ⟨hs', l', h', _⟩ := h'
  have := (h.det h').2
  simp only [Res.ok.injEq] at this
  obtain ⟨h1, h2, h3⟩ := this
  obtain ⟨h4, h5⟩ := cur_cancel hs hs' h2
  exact ⟨h1, h4, h5, h3⟩

theorem Ok.notNo {e : PExpr} (h : Ok E ctx e fr pre s v a b fr') : ¬ No E ctx e fr pre s := by
  rintro ⟨l', d, h', _⟩
  obtain ⟨hs, l, h, _⟩ := h
  have := (h.det h').2
  cases this

theorem errorsOf_cons_tick {l : List Ev} : errorsOf (.tick :: l) = [] ↔ errorsOf l = [] := Iff.rfl

theorem errorsOf_append_nil {l l' : List Ev} :
    errorsOf (l ++ l') = [] ↔ errorsOf l = [] ∧ errorsOf l' = [] := by
  rw [errorsOf_append, List.append_eq_nil_iff]

/-! ### Equations -/

theorem ok_rule {x : Rule} : Ok E ctx (.rule x) fr pre s v a b fr' ↔
    fr' = fr ∧ ∃ g, Ok E ctx (grammar x) [] pre s v a b g := by
  constructor
  · rintro ⟨hs, l, h, hl⟩
    cases h with
    | rule_ok h => exact ⟨rfl, _, hs, _, h, hl⟩
    | rule_stop _ h => exact h.elim
  · rintro ⟨rfl, g, hs, l, h, hl⟩
    exact ⟨hs, _, .rule_ok h, hl⟩

theorem no_rule {x : Rule} : No E ctx (.rule x) fr pre s ↔ No E ctx (grammar x) [] pre s := by
  constructor
  · rintro ⟨l, d, h, hl⟩
    cases h with
    | rule_stop h _ => exact ⟨_, _, h, hl⟩
  · rintro ⟨l, d, h, hl⟩
    exact ⟨_, _, .rule_stop h trivial, hl⟩

theorem ok_action {act : Act} {e : PExpr} : Ok E ctx (.action act e) fr pre s v a b fr' ↔
    ∃ v0, Ok E ctx e fr pre s v0 a b fr' ∧ runAct E act fr' a (locAt pre s) = .ok (v, none) := by
  constructor
  · rintro ⟨rfl, l, h, hl⟩
    cases h with
    | action_ok h hr => rw [textOf_cur] at hr; exact ⟨_, ⟨rfl, _, h, hl⟩, hr⟩
    | action_err h hr =>
      rw [errorsOf_cons_tick, errorsOf_append_nil] at hl
      cases hl.2
    | action_stop _ h => exact h.elim
  · rintro ⟨v0, ⟨rfl, l, h, hl⟩, hr⟩
    exact ⟨rfl, _, .action_ok h (by rw [textOf_cur]; exact hr), hl⟩

theorem no_action {act : Act} {e : PExpr} : No E ctx (.action act e) fr pre s ↔ No E ctx e fr pre s := by
  constructor
  · rintro ⟨l, d, h, hl⟩
    cases h with
    | action_stop h _ => exact ⟨_, _, h, hl⟩
  · rintro ⟨l, d, h, hl⟩
    exact ⟨_, _, .action_stop h trivial, hl⟩

theorem ok_label {x : PLabel} {e : PExpr} : Ok E ctx (.label x e) fr pre s v a b fr' ↔
    fr' = (x, v) :: fr ∧ ∃ g, Ok E ctx e [] pre s v a b g := by
  constructor
  · rintro ⟨hs, l, h, hl⟩
    cases h with
    | label_ok h => exact ⟨rfl, _, hs, _, h, hl⟩
    | label_stop _ h => exact h.elim
  · rintro ⟨rfl, g, hs, l, h, hl⟩
    exact ⟨hs, _, .label_ok h, hl⟩

theorem no_label {x : PLabel} {e : PExpr} : No E ctx (.label x e) fr pre s ↔ No E ctx e [] pre s := by
  constructor
  · rintro ⟨l, d, h, hl⟩
    cases h with
    | label_stop h _ => exact ⟨_, _, h, hl⟩
  · rintro ⟨l, d, h, hl⟩
    exact ⟨_, _, .label_stop h trivial, hl⟩

/-- The rest of a sequence matches. -/
def OkS (E : Env) (ctx : Ctx) : List PExpr → List PV → VFrame → Str → Str → PV → Str → Str → VFrame → Prop
  | [], acc, fr, _, s, v, a, b, fr' => a = [] ∧ s = b ∧ v = .list acc ∧ fr' = fr
  | e :: es, acc, fr, pre, s, v, a, b, fr' => ∃ v1 a1 b1 fr1, Ok E ctx e fr pre s v1 a1 b1 fr1 ∧
      ∃ a2, a = a1 ++ a2 ∧ OkS E ctx es (acc ++ [v1]) fr1 (pre ++ a1) b1 v a2 b fr'

/-- The rest of a sequence does not match. -/
def NoS (E : Env) (ctx : Ctx) : List PExpr → VFrame → Str → Str → Prop
  | [], _, _, _ => False
  | e :: es, fr, pre, s => No E ctx e fr pre s ∨
      ∃ v1 a1 b1 fr1, Ok E ctx e fr pre s v1 a1 b1 fr1 ∧ NoS E ctx es fr1 (pre ++ a1) b1

theorem okJ_seq {st : Cursor} {es : List PExpr} {acc : List PV} :
    OkJ E ctx (.seq st es acc fr) pre s v a b fr' ↔ OkS E ctx es acc fr pre s v a b fr' := by
  induction es generalizing acc fr pre s a with
  | nil =>
    constructor
    · rintro ⟨hs, l, h, hl⟩
      generalize hc : cur (pre ++ a) b = c' at h
      cases h
      have hb : b = s := map_ok_inj (congrArg Cursor.rest hc)
      subst hb
      exact ⟨List.append_left_eq_self.1 hs.symm, rfl, rfl, rfl⟩
    · rintro ⟨rfl, rfl, rfl, rfl⟩
      refine ⟨rfl, [], ?_, rfl⟩
      rw [List.append_nil]
      exact .seq_nil
  | cons e es ih =>
    constructor
    · rintro ⟨hs, l, h, hl⟩
      cases h with
      | seq_cons h1 h2 =>
        rw [errorsOf_append_nil] at hl
        obtain ⟨a1, b1, rfl, k1⟩ := okJ_of_big h1 hl.1
        obtain ⟨a2, b2, hc, k2⟩ := okJ_of_big h2 hl.2
        rw [List.append_assoc] at hc
        obtain ⟨h3, h4⟩ := cur_cancel hs (k1.1.trans (by rw [k2.1, ← List.append_assoc])) hc
        subst h4
        exact ⟨_, a1, b1, _, k1, a2, h3, ih.1 k2⟩
    · rintro ⟨v1, a1, b1, fr1, h1, a2, rfl, h2⟩
      obtain ⟨hs2, l2, h2, hl2⟩ := ih.2 h2
      obtain ⟨hs1, l1, h1, hl1⟩ := h1
      subst hs2
      subst hs1
      refine ⟨by simp, l1 ++ l2, ?_, errorsOf_append_nil.2 ⟨hl1, hl2⟩⟩
      rw [← List.append_assoc pre]
      exact .seq_cons h1 h2

theorem noJ_seq {st : Cursor} {es : List PExpr} {acc : List PV} :
    NoJ E ctx (.seq st es acc fr) pre s ↔ NoS E ctx es fr pre s := by
  induction es generalizing acc fr pre s with
  | nil =>
    constructor
    · rintro ⟨l, d, h, hl⟩; cases h
    · intro h; exact h.elim
  | cons e es ih =>
    constructor
    · rintro ⟨l, d, h, hl⟩
      cases h with
      | seq_cons h1 h2 =>
        rw [errorsOf_append_nil] at hl
        obtain ⟨a1, b1, rfl, k1⟩ := okJ_of_big h1 hl.1
        exact .inr ⟨_, a1, b1, _, k1, ih.1 ⟨_, _, h2, hl.2⟩⟩
      | seq_fail h => exact .inl ⟨_, _, h, hl⟩
    · rintro (⟨l, d, h, hl⟩ | ⟨v1, a1, b1, fr1, ⟨hs, l1, h1, hl1⟩, h2⟩)
      · exact ⟨_, _, .seq_fail h, hl⟩
      · obtain ⟨l2, d, h2, hl2⟩ := ih.2 h2
        exact ⟨_, _, .seq_cons h1 h2, errorsOf_append_nil.2 ⟨hl1, hl2⟩⟩

theorem ok_seq {es : List PExpr} : Ok E ctx (.seq es) fr pre s v a b fr' ↔
    OkS E ctx es [] fr pre s v a b fr' := by
  rw [← okJ_seq (st := cur pre s)]
  constructor
  · rintro ⟨hs, l, h, hl⟩
    cases h with
    | seq h => exact ⟨hs, _, h, hl⟩
  · rintro ⟨hs, l, h, hl⟩
    exact ⟨hs, _, .seq h, hl⟩

theorem no_seq {es : List PExpr} : No E ctx (.seq es) fr pre s ↔ NoS E ctx es fr pre s := by
  rw [← noJ_seq (st := cur pre s) (acc := [])]
  constructor
  · rintro ⟨l, d, h, hl⟩
    cases h with
    | seq h => exact ⟨_, _, h, hl⟩
  · rintro ⟨l, d, h, hl⟩
    exact ⟨_, _, .seq h, hl⟩

/-- Some alternative matches, the earlier ones do not. -/
def OkC (E : Env) (ctx : Ctx) : List PExpr → Str → Str → PV → Str → Str → Prop
  | [], _, _, _, _, _ => False
  | e :: es, pre, s, v, a, b => (∃ g, Ok E ctx e [] pre s v a b g) ∨
      (No E ctx e [] pre s ∧ OkC E ctx es pre s v a b)

/-- No alternative matches. -/
def NoC (E : Env) (ctx : Ctx) : List PExpr → Str → Str → Prop
  | [], _, _ => True
  | e :: es, pre, s => No E ctx e [] pre s ∧ NoC E ctx es pre s

theorem okJ_choice {es : List PExpr} : OkJ E ctx (.choice fr es) pre s v a b fr' ↔
    fr' = fr ∧ OkC E ctx es pre s v a b := by
  induction es with
  | nil =>
    constructor
    · rintro ⟨hs, l, h, hl⟩; cases h
    · rintro ⟨_, h⟩; exact h.elim
  | cons e es ih =>
    constructor
    · rintro ⟨hs, l, h, hl⟩
      cases h with
      | choice_ok h => exact ⟨rfl, .inl ⟨_, hs, _, h, hl⟩⟩
      | choice_next h1 h2 =>
        rw [errorsOf_append_nil] at hl
        have := h1.fail_back
        subst this
        have := ih.1 ⟨hs, _, h2, hl.2⟩
        exact ⟨this.1, .inr ⟨⟨_, _, h1, hl.1⟩, this.2⟩⟩
    · rintro ⟨rfl, ⟨g, hs, l, h, hl⟩ | ⟨⟨l, d, h, hl⟩, h2⟩⟩
      · exact ⟨hs, _, .choice_ok h, hl⟩
      · obtain ⟨hs, l2, h2, hl2⟩ := ih.2 ⟨rfl, h2⟩
        have := h.fail_back
        subst this
        exact ⟨hs, _, .choice_next h h2, errorsOf_append_nil.2 ⟨hl, hl2⟩⟩

theorem noJ_choice {es : List PExpr} : NoJ E ctx (.choice fr es) pre s ↔ NoC E ctx es pre s := by
  induction es with
  | nil =>
    constructor
    · intro _; trivial
    · intro _; exact ⟨_, _, .choice_nil, rfl⟩
  | cons e es ih =>
    constructor
    · rintro ⟨l, d, h, hl⟩
      cases h with
      | choice_next h1 h2 =>
        rw [errorsOf_append_nil] at hl
        have := h1.fail_back
        subst this
        exact ⟨⟨_, _, h1, hl.1⟩, ih.1 ⟨_, _, h2, hl.2⟩⟩
    · rintro ⟨⟨l, d, h, hl⟩, h2⟩
      obtain ⟨l2, d2, h2, hl2⟩ := ih.2 h2
      have := h.fail_back
      subst this
      exact ⟨_, _, .choice_next h h2, errorsOf_append_nil.2 ⟨hl, hl2⟩⟩

theorem ok_choice {es : List PExpr} : Ok E ctx (.choice es) fr pre s v a b fr' ↔
    fr' = fr ∧ OkC E ctx es pre s v a b := by
  rw [← okJ_choice]
  constructor
  · rintro ⟨hs, l, h, hl⟩
    cases h with
    | choice h => exact ⟨hs, _, h, hl⟩
  · rintro ⟨hs, l, h, hl⟩
    exact ⟨hs, _, .choice h, hl⟩

theorem no_choice {es : List PExpr} : No E ctx (.choice es) fr pre s ↔ NoC E ctx es pre s := by
  rw [← noJ_choice (fr := fr)]
  constructor
  · rintro ⟨l, d, h, hl⟩
    cases h with
    | choice h => exact ⟨_, _, h, hl⟩
  · rintro ⟨l, d, h, hl⟩
    exact ⟨_, _, .choice h, hl⟩

theorem ok_opt {e : PExpr} : Ok E ctx (.opt e) fr pre s v a b fr' ↔
    fr' = fr ∧ ((∃ g, Ok E ctx e [] pre s v a b g) ∨
      (No E ctx e [] pre s ∧ v = .nil ∧ a = [] ∧ s = b)) := by
  constructor
  · rintro ⟨hs, l, h, hl⟩
    generalize hc : cur (pre ++ a) b = c' at h
    cases h with
    | opt_ok h => subst hc; exact ⟨rfl, .inl ⟨_, hs, _, h, hl⟩⟩
    | opt_none h =>
      have := h.fail_back
      subst this
      have hb : b = s := map_ok_inj (congrArg Cursor.rest hc)
      subst hb
      exact ⟨rfl, .inr ⟨⟨_, _, h, hl⟩, rfl, List.append_left_eq_self.1 hs.symm, rfl⟩⟩
  · rintro ⟨rfl, ⟨g, hs, l, h, hl⟩ | ⟨⟨l, d, h, hl⟩, rfl, rfl, rfl⟩⟩
    · exact ⟨hs, _, .opt_ok h, hl⟩
    · refine ⟨rfl, .tick :: l, ?_, hl⟩
      have := h.fail_back
      subst this
      rw [List.append_nil]
      exact .opt_none h

theorem no_opt {e : PExpr} : ¬ No E ctx (.opt e) fr pre s := by
  rintro ⟨l, d, h, hl⟩
  cases h

/-- The context inside a negation. -/
def Ctx.flip (ctx : Ctx) : Ctx := { ctx with inv := !ctx.inv }

theorem ok_not {e : PExpr} : Ok E ctx (.not e) fr pre s v a b fr' ↔
    fr' = fr ∧ v = .nil ∧ a = [] ∧ s = b ∧ No E ctx.flip e [] pre s := by
  constructor
  · rintro ⟨hs, l, h, hl⟩
    generalize hc : cur (pre ++ a) b = c' at h
    cases h with
    | not_ok h =>
      have hb : b = s := map_ok_inj (congrArg Cursor.rest hc)
      subst hb
      exact ⟨rfl, rfl, List.append_left_eq_self.1 hs.symm, rfl, ⟨_, _, h, hl⟩⟩
  · rintro ⟨rfl, rfl, rfl, rfl, l, d, h, hl⟩
    refine ⟨rfl, .tick :: l, ?_, hl⟩
    rw [List.append_nil]
    exact .not_ok h

theorem no_not {e : PExpr} : No E ctx (.not e) fr pre s ↔
    ∃ v a b g, Ok E ctx.flip e [] pre s v a b g := by
  constructor
  · rintro ⟨l, d, h, hl⟩
    cases h with
    | not_fail h =>
      obtain ⟨a, b, hc, h⟩ := okJ_of_big h hl
      exact ⟨_, a, b, _, h⟩
  · rintro ⟨v, a, b, g, hs, l, h, hl⟩
    exact ⟨_, _, .not_fail h, hl⟩

theorem ok_any : Ok E ctx .any fr pre s v a b fr' ↔
    fr' = fr ∧ ∃ x, a = [x] ∧ s = x :: b ∧ v = .bytes [x] := by
  constructor
  · rintro ⟨hs, l, h, hl⟩
    generalize hc : cur (pre ++ a) b = c' at h
    cases h with
    | any_ok h =>
      cases s with
      | nil => cases h
      | cons x s =>
        rw [cur_next] at hc ⊢
        obtain ⟨rfl, rfl⟩ := cur_cancel (a' := [x]) (b' := s) hs rfl hc
        exact ⟨rfl, x, rfl, rfl, congrArg PV.bytes (textOf_cur pre [x] b)⟩
  · rintro ⟨rfl, x, rfl, rfl, rfl⟩
    refine ⟨rfl, ?_⟩
    have := Big.any_ok (E := E) (ctx := ctx) (fr := fr') (c := cur pre (x :: b)) rfl
    rw [cur_next, encErr_cur, show x :: b = [x] ++ b from rfl, textOf_cur] at this
    exact ⟨_, this, rfl⟩

theorem no_any : No E ctx .any fr pre s ↔ s = [] := by
  constructor
  · rintro ⟨l, d, h, hl⟩
    cases h with
    | any_eof h => exact List.map_eq_nil_iff.1 h
  · rintro rfl
    exact ⟨_, _, .any_eof rfl, rfl⟩

section
variable {chars : List Char} {ranges : List (Char × Char)} {ic inv : Bool} {w : Str}

theorem ok_cls : Ok E ctx (.cls chars ranges ic inv w) fr pre s v a b fr' ↔
    fr' = fr ∧ ∃ x, a = [x] ∧ s = x :: b ∧ v = .bytes [x] ∧ clsMatch E chars ranges ic inv x = true := by
  constructor
  · rintro ⟨hs, l, h, hl⟩
    generalize hc : cur (pre ++ a) b = c' at h
    cases h with
    | cls_ok h hm =>
      cases s with
      | nil => cases h
      | cons x s =>
        rw [cur_next] at hc ⊢
        obtain ⟨rfl, rfl⟩ := cur_cancel (a' := [x]) (b' := s) hs rfl hc
        cases h
        exact ⟨rfl, x, rfl, rfl, congrArg PV.bytes (textOf_cur pre [x] b), hm⟩
  · rintro ⟨rfl, x, rfl, rfl, rfl, hm⟩
    refine ⟨rfl, ?_⟩
    have := Big.cls_ok (E := E) (ctx := ctx) (fr := fr') (c := cur pre (x :: b)) (w := w) rfl hm
    rw [cur_next, encErr_cur, show x :: b = [x] ++ b from rfl, textOf_cur] at this
    exact ⟨_, this, rfl⟩

theorem no_cls : No E ctx (.cls chars ranges ic inv w) fr pre s ↔
    ∀ x t, s = x :: t → clsMatch E chars ranges ic inv x = false := by
  constructor
  · rintro ⟨l, d, h, hl⟩ x t rfl
    cases h with
    | cls_fail h => exact h _ _ rfl
  · intro h
    refine ⟨_, _, .cls_fail ?_, ?_⟩
    · intro x t hx
      cases s with
      | nil => cases hx
      | cons y s => cases hx; exact h y s rfl
    · rfl

/-- Do the runes match the literal? -/
theorem litLoop_cur (ic : Bool) (t : Str) : ∀ (pre s : Str),
    (∀ a b, s = a ++ b → a.map (fun x => if ic then goLower E x else x) = t →
      litLoop E ic t (cur pre s) = ([], some (cur (pre ++ a) b))) ∧
    ((∀ a b, s = a ++ b → a.map (fun x => if ic then goLower E x else x) ≠ t) →
      litLoop E ic t (cur pre s) = ([], none)) := by
  induction t with
  | nil =>
    intro pre s
    constructor
    · intro a b hs ha
      rw [List.map_eq_nil_iff.1 ha, List.nil_append] at hs
      rw [hs, List.map_eq_nil_iff.1 ha, List.append_nil]
      rfl
    · intro h
      exact absurd rfl (h [] s rfl)
  | cons w t ih =>
    intro pre s
    cases s with
    | nil =>
      constructor
      · intro a b hs ha
        cases a with
        | nil => cases ha
        | cons x a => cases hs
      · intro _; rfl
    | cons x s =>
      have hstep : litLoop E ic (w :: t) (cur pre (x :: s)) =
          if (if ic then goLower E x else x) = w then
            (encErr (cur (pre ++ [x]) s) ++ (litLoop E ic t (cur (pre ++ [x]) s)).1,
              (litLoop E ic t (cur (pre ++ [x]) s)).2)
          else ([], none) := by
        rw [← cur_next]; rfl
      rw [hstep]
      by_cases hw : (if ic = true then goLower E x else x) = w
      · obtain ⟨ih1, ih2⟩ := ih (pre ++ [x]) s
        constructor
        · intro a b hs ha
          cases a with
          | nil => cases ha
          | cons y a =>
            simp only [List.cons_append, List.cons.injEq] at hs
            obtain ⟨rfl, hs⟩ := hs
            simp only [List.map_cons, List.cons.injEq] at ha
            rw [if_pos hw, encErr_cur, ih1 a b hs ha.2]
            simp
        · intro h
          rw [if_pos hw]
          have := ih2 (fun a b hs ha => h (x :: a) b (by rw [hs]; rfl) (by simp [hw, ha]))
          rw [this, encErr_cur]; rfl
      · constructor
        · intro a b hs ha
          cases a with
          | nil => cases ha
          | cons y a =>
            simp only [List.cons_append, List.cons.injEq] at hs
            obtain ⟨rfl, hs⟩ := hs
            simp only [List.map_cons, List.cons.injEq] at ha
            exact absurd ha.1 hw
        · intro _
          rw [if_neg hw]

theorem ok_litI {t : Str} : Ok E ctx (.lit t ic w) fr pre s v a b fr' ↔
    fr' = fr ∧ s = a ++ b ∧ v = .bytes a ∧ a.map (fun x => if ic then goLower E x else x) = t := by
  constructor
  · rintro ⟨rfl, l, h, hl⟩
    by_cases hm : ∃ a' b', a ++ b = a' ++ b' ∧ a'.map (fun x => if ic then goLower E x else x) = t
    · obtain ⟨a', b', hs, ha⟩ := hm
      have hll := (litLoop_cur (E := E) ic t pre (a ++ b)).1 a' b' hs ha
      generalize hc : cur (pre ++ a) b = c' at h
      cases h with
      | lit_ok h =>
        rw [hll] at h
        simp only [Prod.mk.injEq, Option.some.injEq] at h
        rw [← hc] at h
        obtain ⟨rfl, rfl⟩ := cur_cancel rfl hs h.2.symm
        subst hc
        exact ⟨rfl, rfl, congrArg PV.bytes (textOf_cur pre a b), ha⟩
    · push Not at hm
      have hll := (litLoop_cur (E := E) ic t pre (a ++ b)).2 hm
      cases h with
      | lit_ok h => rw [hll] at h; cases h
  · rintro ⟨rfl, rfl, rfl, rfl⟩
    have hll := (litLoop_cur (E := E) ic _ pre (a ++ b)).1 a b rfl rfl
    have := Big.lit_ok (E := E) (ctx := ctx) (fr := fr') (w := w) hll
    rw [textOf_cur] at this
    exact ⟨rfl, _, this, rfl⟩

theorem no_litI {t : Str} : No E ctx (.lit t ic w) fr pre s ↔
    ∀ a b, s = a ++ b → a.map (fun x => if ic then goLower E x else x) ≠ t := by
  constructor
  · rintro ⟨l, d, h, hl⟩ a b hs ha
    have hll := (litLoop_cur (E := E) ic t pre s).1 a b hs ha
    cases h with
    | lit_fail h => rw [hll] at h; cases h
  · intro h
    have hll := (litLoop_cur (E := E) ic t pre s).2 h
    exact ⟨_, _, .lit_fail hll, rfl⟩

theorem ok_lit {t : Str} : Ok E ctx (.lit t false w) fr pre s v a b fr' ↔
    fr' = fr ∧ a = t ∧ s = t ++ b ∧ v = .bytes t := by
  rw [ok_litI]
  simp only [Bool.false_eq_true, if_false, List.map_id']
  constructor
  · rintro ⟨rfl, rfl, rfl, rfl⟩; exact ⟨rfl, rfl, rfl, rfl⟩
  · rintro ⟨rfl, rfl, rfl, rfl⟩; exact ⟨rfl, rfl, rfl, rfl⟩

theorem no_lit {t : Str} : No E ctx (.lit t false w) fr pre s ↔ ∀ b, s ≠ t ++ b := by
  rw [no_litI]
  simp only [Bool.false_eq_true, if_false, List.map_id']
  constructor
  · rintro h b rfl; exact h t b rfl rfl
  · rintro h a b rfl rfl; exact h b rfl

end

/-- Repeated matches, then no more. -/
inductive Reps (E : Env) (ctx : Ctx) (e : PExpr) : Str → Str → List PV → Str → Str → Prop
  | nil {pre s : Str} : No E ctx e [] pre s → Reps E ctx e pre s [] [] s
  | cons {pre s a1 b1 a2 b : Str} {v : PV} {g : VFrame} {vs : List PV} : Ok E ctx e [] pre s v a1 b1 g →
      Reps E ctx e (pre ++ a1) b1 vs a2 b → Reps E ctx e pre s (v :: vs) (a1 ++ a2) b

theorem Reps.split {e : PExpr} {vs : List PV} (h : Reps E ctx e pre s vs a b) : s = a ++ b := by
  induction h with
  | nil => rfl
  | cons h1 _ ih => rw [h1.1, ih, List.append_assoc]

theorem okJ_rep {e : PExpr} {one : Bool} : ∀ {acc : List PV} {a s pre},
    OkJ E ctx (.rep fr e one acc) pre s v a b fr' ↔
    fr' = fr ∧ ∃ vs, v = .list (acc ++ vs) ∧ Reps E ctx e pre s vs a b ∧
      (one = true → acc ++ vs ≠ []) := by
  have fwd : ∀ {acc pre s l c'}, Big E ctx (.rep fr e one acc) (cur pre s) l (.ok v c' fr') →
      errorsOf l = [] → fr' = fr ∧ ∃ a b vs, c' = cur (pre ++ a) b ∧ v = .list (acc ++ vs) ∧
        Reps E ctx e pre s vs a b ∧ (one = true → acc ++ vs ≠ []) := by
    intro acc pre s l c' h
    generalize hj : Job.rep fr e one acc = j at h
    generalize hr : Res.ok v c' fr' = r at h
    generalize hc : cur pre s = c at h
    induction h generalizing acc pre s with
    | rep_next h1 h2 _ ih2 =>
      cases hj
      subst hc
      intro hl
      rw [errorsOf_append_nil] at hl
      obtain ⟨a1, b1, rfl, k1⟩ := okJ_of_big h1 hl.1
      obtain ⟨h3, a, b, vs, h4, h5, h6, h7⟩ := ih2 rfl hr rfl hl.2
      exact ⟨h3, a1 ++ a, b, _ :: vs, by rw [h4, List.append_assoc], by rw [h5]; simp, .cons k1 h6,
        fun _ => by simp⟩
    | rep_stop h hn _ =>
      cases hj
      subst hc
      intro hl
      have := h.fail_back
      subst this
      cases hr
      refine ⟨rfl, [], s, [], by simp, by simp, .nil ⟨_, _, h, hl⟩, ?_⟩
      intro h1 h2
      exact hn ⟨h1, by simpa using h2⟩
    | rep_fail => cases hr
    | rep_panic => cases hr
    | _ => cases hj
  have bwd : ∀ {pre s vs a b}, Reps E ctx e pre s vs a b → ∀ {acc}, (one = true → acc ++ vs ≠ []) →
      ∃ l, Big E ctx (.rep fr e one acc) (cur pre s) l
        (.ok (.list (acc ++ vs)) (cur (pre ++ a) b) fr) ∧ errorsOf l = [] := by
    intro pre s vs a b h
    induction h with
    | nil h =>
      intro acc hne
      obtain ⟨l, d, h, hl⟩ := h
      have := h.fail_back
      subst this
      refine ⟨l, ?_, hl⟩
      rw [List.append_nil, List.append_nil]
      refine .rep_stop h ?_
      rintro ⟨h1, h2⟩
      exact hne h1 (by simp [h2])
    | @cons _ _ _ _ _ _ v _ vs h1 _ ih =>
      intro acc hne
      obtain ⟨hs, l1, h1, hl1⟩ := h1
      obtain ⟨l2, h2, hl2⟩ := ih (acc := acc ++ [v]) (fun _ => by simp)
      refine ⟨l1 ++ l2, ?_, errorsOf_append_nil.2 ⟨hl1, hl2⟩⟩
      have := Big.rep_next h1 h2
      simpa using this
  intro acc a s pre
  constructor
  · rintro ⟨hs, l, h, hl⟩
    obtain ⟨h1, a', b', vs, h2, h3, h4, h5⟩ := fwd h hl
    obtain ⟨rfl, rfl⟩ := cur_cancel hs h4.split h2
    exact ⟨h1, vs, h3, h4, h5⟩
  · rintro ⟨rfl, vs, rfl, h, hne⟩
    exact ⟨h.split, bwd h hne⟩

theorem ok_star {e : PExpr} : Ok E ctx (.star e) fr pre s v a b fr' ↔
    fr' = fr ∧ ∃ vs, v = .list vs ∧ Reps E ctx e pre s vs a b := by
  have : OkJ E ctx (.rep fr e false []) pre s v a b fr' ↔ fr' = fr ∧ ∃ vs, v = .list vs ∧
      Reps E ctx e pre s vs a b := by
    rw [okJ_rep]; simp
  rw [← this]
  constructor
  · rintro ⟨hs, l, h, hl⟩
    cases h with
    | star h => exact ⟨hs, _, h, hl⟩
  · rintro ⟨hs, l, h, hl⟩
    exact ⟨hs, _, .star h, hl⟩

theorem no_star {e : PExpr} : ¬ No E ctx (.star e) fr pre s := by
  rintro ⟨l, d, h, hl⟩
  cases h with
  | star h => cases h with
    | rep_next _ h => exact absurd h.inv.2.2 (by simp [Job.mayFail])

theorem ok_plus {e : PExpr} : Ok E ctx (.plus e) fr pre s v a b fr' ↔
    fr' = fr ∧ ∃ vs, v = .list vs ∧ Reps E ctx e pre s vs a b ∧ vs ≠ [] := by
  have : OkJ E ctx (.rep fr e true []) pre s v a b fr' ↔ fr' = fr ∧ ∃ vs, v = .list vs ∧
      Reps E ctx e pre s vs a b ∧ vs ≠ [] := by
    rw [okJ_rep]; simp
  rw [← this]
  constructor
  · rintro ⟨hs, l, h, hl⟩
    cases h with
    | plus h => exact ⟨hs, _, h, hl⟩
  · rintro ⟨hs, l, h, hl⟩
    exact ⟨hs, _, .plus h, hl⟩

theorem no_plus {e : PExpr} : No E ctx (.plus e) fr pre s ↔ No E ctx e [] pre s := by
  constructor
  · rintro ⟨l, d, h, hl⟩
    cases h with
    | plus h => cases h with
      | rep_next _ h => exact absurd h.inv.2.2 (by simp [Job.mayFail])
      | rep_fail h => exact ⟨_, _, h, hl⟩
  · rintro ⟨l, d, h, hl⟩
    exact ⟨_, _, .plus (.rep_fail h), hl⟩

theorem ok_recover {x : FailLabel} {e h : PExpr} : Ok E ctx (.recover x e h) fr pre s v a b fr' ↔
    Ok E { ctx with recov := (x, h) :: ctx.recov } e fr pre s v a b fr' := by
  constructor
  · rintro ⟨hs, l, h, hl⟩
    cases h with
    | recover h => exact ⟨hs, _, h, hl⟩
  · rintro ⟨hs, l, h, hl⟩
    exact ⟨hs, _, .recover h, hl⟩

theorem no_recover {x : FailLabel} {e h : PExpr} : No E ctx (.recover x e h) fr pre s ↔
    No E { ctx with recov := (x, h) :: ctx.recov } e fr pre s := by
  constructor
  · rintro ⟨l, d, h, hl⟩
    cases h with
    | recover h => exact ⟨_, _, h, hl⟩
  · rintro ⟨l, d, h, hl⟩
    exact ⟨_, _, .recover h, hl⟩

/-- Evaluating a state code records an error. -/
theorem dirty_state {st : StateCode} {c : Cursor} {l : List Ev} {r : Res}
    (h : Big E ctx (.expr (.state st) fr) c l r) : errorsOf l ≠ [] := by
  cases h
  simp [errorsOf]

theorem dirty_rule {x : Rule} {c : Cursor} {l : List Ev} {r : Res}
    (hx : ∃ st, grammar x = .state st) (h : Big E ctx (.expr (.rule x) fr) c l r) : errorsOf l ≠ [] := by
  obtain ⟨st, hx⟩ := hx
  cases h with
  | rule_ok h => rw [hx] at h; exact fun hl => dirty_state h hl
  | rule_stop h _ => rw [hx] at h; exact fun hl => dirty_state h hl

/-- A throw that is caught by a rule made of a state code records an error. -/
theorem dirty_throw {x : FailLabel} {y : Rule} {rs : List (FailLabel × PExpr)} {c : Cursor}
    {l : List Ev} {r : Res} (hx : ∃ st, grammar y = .state st)
    (hc : ctx.recov = (x, .rule y) :: rs) (h : Big E ctx (.expr (.throw x) fr) c l r) :
    errorsOf l ≠ [] := by
  cases h with
  | throw h =>
    rw [hc] at h
    cases h with
    | throw_skip hne _ => exact absurd rfl hne
    | throw_ok h => exact fun hl => dirty_rule hx h hl
    | throw_next h _ =>
      intro hl
      rw [errorsOf_cons_tick, errorsOf_append_nil] at hl
      exact dirty_rule hx h hl.1
    | throw_panic h => exact fun hl => dirty_rule hx h hl

theorem ok_throw {x : FailLabel} {y : Rule} {rs : List (FailLabel × PExpr)}
    (hx : ∃ st, grammar y = .state st) (hc : ctx.recov = (x, .rule y) :: rs) :
    ¬ Ok E ctx (.throw x) fr pre s v a b fr' := by
  rintro ⟨hs, l, h, hl⟩
  exact dirty_throw hx hc h hl

theorem no_throw {x : FailLabel} {y : Rule} {rs : List (FailLabel × PExpr)}
    (hx : ∃ st, grammar y = .state st) (hc : ctx.recov = (x, .rule y) :: rs) :
    ¬ No E ctx (.throw x) fr pre s := by
  rintro ⟨l, d, h, hl⟩
  exact dirty_throw hx hc h hl

/-- Everything matched is a prefix. -/
theorem Ok.split {e : PExpr} (h : Ok E ctx e fr pre s v a b fr') : s = a ++ b := h.1

end Aql
