import Verif.Model.Peg
/-!
The parser run time as a relation (big-step), equivalent to the interpreter of `Model/Peg`, and
general facts about all grammars.
-/

namespace Aql

variable (E : Env)

/-- What is being evaluated: an expression or one of the loops. -/
inductive Job
  | expr (e : PExpr) (fr : VFrame)
  | seq (start : Cursor) (es : List PExpr) (acc : List PV) (fr : VFrame)
  | choice (fr : VFrame) (es : List PExpr)
  | rep (fr : VFrame) (e : PExpr) (one : Bool) (acc : List PV)
  | throw (l : FailLabel) (fr : VFrame) (rs : List (FailLabel × PExpr))

/-- `(nil, false)` or a panic. -/
def Res.stops : Res → Prop
  | .ok .. => False
  | _ => True

/-- Big-step evaluation. -/
inductive Big : Ctx → Job → Cursor → List Ev → Res → Prop
  | action_ok {ctx a e fr c l v c' fr' v'} : Big ctx (.expr e fr) c l (.ok v c' fr') →
      runAct E a fr' (textOf c c') c.loc = .ok (v', none) →
      Big ctx (.expr (.action a e) fr) c (.tick :: l) (.ok v' c' fr')
  | action_err {ctx a e fr c l v c' fr' v' er} : Big ctx (.expr e fr) c l (.ok v c' fr') →
      runAct E a fr' (textOf c c') c.loc = .ok (v', some er) →
      Big ctx (.expr (.action a e) fr) c (.tick :: (l ++ [.err c.loc er])) (.ok v' c' fr')
  | action_panic {ctx a e fr c l v c' fr' p} : Big ctx (.expr e fr) c l (.ok v c' fr') →
      runAct E a fr' (textOf c c') c.loc = .error p →
      Big ctx (.expr (.action a e) fr) c (.tick :: l) (.panic p c')
  | action_stop {ctx a e fr c l r} : Big ctx (.expr e fr) c l r → r.stops →
      Big ctx (.expr (.action a e) fr) c (.tick :: l) r
  | seq {ctx es fr c l r} : Big ctx (.seq c es [] fr) c l r →
      Big ctx (.expr (.seq es) fr) c (.tick :: l) r
  | seq_nil {ctx st acc fr c} : Big ctx (.seq st [] acc fr) c [] (.ok (.list acc) c fr)
  | seq_cons {ctx st e es acc fr c l v c' fr' l' r} : Big ctx (.expr e fr) c l (.ok v c' fr') →
      Big ctx (.seq st es (acc ++ [v]) fr') c' l' r →
      Big ctx (.seq st (e :: es) acc fr) c (l ++ l') r
  | seq_fail {ctx st e es acc fr c l c'} : Big ctx (.expr e fr) c l (.fail c') →
      Big ctx (.seq st (e :: es) acc fr) c l (.fail st)
  | seq_panic {ctx st e es acc fr c l p c'} : Big ctx (.expr e fr) c l (.panic p c') →
      Big ctx (.seq st (e :: es) acc fr) c l (.panic p c')
  | choice {ctx es fr c l r} : Big ctx (.choice fr es) c l r →
      Big ctx (.expr (.choice es) fr) c (.tick :: l) r
  | choice_nil {ctx fr c} : Big ctx (.choice fr []) c [] (.fail c)
  | choice_ok {ctx fr e es c l v c' fr'} : Big ctx (.expr e []) c l (.ok v c' fr') →
      Big ctx (.choice fr (e :: es)) c l (.ok v c' fr)
  | choice_next {ctx fr e es c l c' l' r} : Big ctx (.expr e []) c l (.fail c') →
      Big ctx (.choice fr es) c' l' r → Big ctx (.choice fr (e :: es)) c (l ++ l') r
  | choice_panic {ctx fr e es c l p c'} : Big ctx (.expr e []) c l (.panic p c') →
      Big ctx (.choice fr (e :: es)) c l (.panic p c')
  | label_ok {ctx x e fr c l v c' fr'} : Big ctx (.expr e []) c l (.ok v c' fr') →
      Big ctx (.expr (.label x e) fr) c (.tick :: l) (.ok v c' ((x, v) :: fr))
  | label_stop {ctx x e fr c l r} : Big ctx (.expr e []) c l r → r.stops →
      Big ctx (.expr (.label x e) fr) c (.tick :: l) r
  | rule_ok {ctx x fr c l v c' fr'} : Big ctx (.expr (grammar x) []) c l (.ok v c' fr') →
      Big ctx (.expr (.rule x) fr) c (.tick :: l) (.ok v c' fr)
  | rule_stop {ctx x fr c l r} : Big ctx (.expr (grammar x) []) c l r → r.stops →
      Big ctx (.expr (.rule x) fr) c (.tick :: l) r
  | lit_ok {ctx s ic w fr c l c'} : litLoop E ic s c = (l, some c') →
      Big ctx (.expr (.lit s ic w) fr) c (.tick :: (l ++ [.mark true ctx.inv c.loc w]))
        (.ok (.bytes (textOf c c')) c' fr)
  | lit_fail {ctx s ic w fr c l} : litLoop E ic s c = (l, none) →
      Big ctx (.expr (.lit s ic w) fr) c (.tick :: (l ++ [.mark false ctx.inv c.loc w])) (.fail c)
  | cls_ok {ctx chars ranges ic inv w fr c s t} : c.rest = s :: t →
      clsMatch E chars ranges ic inv s.rune = true →
      Big ctx (.expr (.cls chars ranges ic inv w) fr) c
        (.tick :: (encErr c.next ++ [.mark true ctx.inv c.loc w]))
        (.ok (.bytes (textOf c c.next)) c.next fr)
  | cls_fail {ctx chars ranges ic inv w fr c} :
      (∀ s t, c.rest = s :: t → clsMatch E chars ranges ic inv s.rune = false) →
      Big ctx (.expr (.cls chars ranges ic inv w) fr) c [.tick, .mark false ctx.inv c.loc w] (.fail c)
  | any_ok {ctx fr c s t} : c.rest = s :: t →
      Big ctx (.expr .any fr) c (.tick :: (encErr c.next ++ [.mark true ctx.inv c.loc ['.']]))
        (.ok (.bytes (textOf c c.next)) c.next fr)
  | any_eof {ctx fr c} : c.rest = [] →
      Big ctx (.expr .any fr) c [.tick, .mark false ctx.inv c.loc ['.']] (.fail c)
  | not_ok {ctx e fr c l c'} : Big { ctx with inv := !ctx.inv } (.expr e []) c l (.fail c') →
      Big ctx (.expr (.not e) fr) c (.tick :: l) (.ok .nil c fr)
  | not_fail {ctx e fr c l v c' fr'} :
      Big { ctx with inv := !ctx.inv } (.expr e []) c l (.ok v c' fr') →
      Big ctx (.expr (.not e) fr) c (.tick :: l) (.fail c)
  | not_panic {ctx e fr c l p c'} : Big { ctx with inv := !ctx.inv } (.expr e []) c l (.panic p c') →
      Big ctx (.expr (.not e) fr) c (.tick :: l) (.panic p c')
  | star {ctx e fr c l r} : Big ctx (.rep fr e false []) c l r →
      Big ctx (.expr (.star e) fr) c (.tick :: l) r
  | plus {ctx e fr c l r} : Big ctx (.rep fr e true []) c l r →
      Big ctx (.expr (.plus e) fr) c (.tick :: l) r
  | rep_next {ctx fr e one acc c l v c' fr' l' r} : Big ctx (.expr e []) c l (.ok v c' fr') →
      Big ctx (.rep fr e one (acc ++ [v])) c' l' r → Big ctx (.rep fr e one acc) c (l ++ l') r
  | rep_stop {ctx fr e one acc c l c'} : Big ctx (.expr e []) c l (.fail c') →
      ¬ (one = true ∧ acc = []) → Big ctx (.rep fr e one acc) c l (.ok (.list acc) c' fr)
  | rep_fail {ctx fr e c l c'} : Big ctx (.expr e []) c l (.fail c') →
      Big ctx (.rep fr e true []) c l (.fail c')
  | rep_panic {ctx fr e one acc c l p c'} : Big ctx (.expr e []) c l (.panic p c') →
      Big ctx (.rep fr e one acc) c l (.panic p c')
  | opt_ok {ctx e fr c l v c' fr'} : Big ctx (.expr e []) c l (.ok v c' fr') →
      Big ctx (.expr (.opt e) fr) c (.tick :: l) (.ok v c' fr)
  | opt_none {ctx e fr c l c'} : Big ctx (.expr e []) c l (.fail c') →
      Big ctx (.expr (.opt e) fr) c (.tick :: l) (.ok .nil c' fr)
  | opt_panic {ctx e fr c l p c'} : Big ctx (.expr e []) c l (.panic p c') →
      Big ctx (.expr (.opt e) fr) c (.tick :: l) (.panic p c')
  | recover {ctx x e h fr c l r} : Big { ctx with recov := (x, h) :: ctx.recov } (.expr e fr) c l r →
      Big ctx (.expr (.recover x e h) fr) c (.tick :: l) r
  | throw {ctx x fr c l r} : Big ctx (.throw x fr ctx.recov) c l r →
      Big ctx (.expr (.throw x) fr) c (.tick :: l) r
  | throw_nil {ctx x fr c} : Big ctx (.throw x fr []) c [] (.fail c)
  | throw_skip {ctx x fr y h rs c l r} : y ≠ x → Big ctx (.throw x fr rs) c l r →
      Big ctx (.throw x fr ((y, h) :: rs)) c l r
  | throw_ok {ctx x fr h rs c l v c' fr'} : Big ctx (.expr h fr) c l (.ok v c' fr') →
      Big ctx (.throw x fr ((x, h) :: rs)) c l (.ok v c' fr')
  | throw_next {ctx x fr h rs c l c' l' r} : Big ctx (.expr h fr) c l (.fail c') →
      Big ctx (.throw x fr rs) c' l' r → Big ctx (.throw x fr ((x, h) :: rs)) c (l ++ l') r
  | throw_panic {ctx x fr h rs c l p c'} : Big ctx (.expr h fr) c l (.panic p c') →
      Big ctx (.throw x fr ((x, h) :: rs)) c l (.panic p c')
  | state {ctx s fr c} :
      Big ctx (.expr (.state s) fr) c [.tick, .err c.loc (runState s)] (.ok .nil c fr)

variable {E}

/-! ### The interpreter computes the relation -/

theorem andThen_done {o : Out} {k : Res → Out} {l : List Ev} {r : Res}
    (h : o.andThen k = .done l r) :
    ∃ l1 r1 l2, o = .done l1 r1 ∧ k r1 = .done l2 r ∧ l = l1 ++ l2 := by
  unfold Out.andThen at h
  split at h
  · cases h
  · rename_i l1 r1
    split at h
    · cases h
    · rename_i l2 r2 h2
      cases h
      exact ⟨_, _, _, rfl, h2, rfl⟩

theorem andThen_of {o : Out} {k : Res → Out} {l1 l2 : List Ev} {r1 r : Res}
    (h1 : o = .done l1 r1) (h2 : k r1 = .done l2 r) : o.andThen k = .done (l1 ++ l2) r := by
  subst h1
  simp only [Out.andThen, h2]

theorem andThen_of_nil {o : Out} {k : Res → Out} {l1 : List Ev} {r1 r : Res}
    (h1 : o = .done l1 r1) (h2 : k r1 = .done [] r) : o.andThen k = .done l1 r := by
  rw [andThen_of h1 h2, List.append_nil]

theorem run_done {f : Nat} {ctx : Ctx} {e : PExpr} {fr : VFrame} {c : Cursor} {l : List Ev} {r : Res}
    (h : run E f ctx e fr c = .done l r) :
    ∃ g l', f = g + 1 ∧ l = .tick :: l' ∧ step E g (run E g) ctx e fr c = .done l' r := by
  cases f with
  | zero => cases h
  | succ g =>
    obtain ⟨l1, r1, l2, h1, h2, rfl⟩ := andThen_done h
    cases h1
    exact ⟨g, l2, rfl, rfl, h2⟩

theorem run_of_step {g : Nat} {ctx : Ctx} {e : PExpr} {fr : VFrame} {c : Cursor} {l : List Ev}
    {r : Res} (h : step E g (run E g) ctx e fr c = .done l r) :
    run E (g + 1) ctx e fr c = .done (.tick :: l) r :=
  andThen_of (l1 := [Ev.tick]) rfl h

/-- `ev` computes what the relation says. -/
def Sound (E : Env) (ev : Eval) : Prop :=
  ∀ ctx e fr c l r, ev ctx e fr c = .done l r → Big E ctx (.expr e fr) c l r

theorem seqLoop_big {ev : Eval} (hev : Sound E ev) {ctx : Ctx} {st : Cursor} {es : List PExpr}
    {acc : List PV} {fr : VFrame} {c : Cursor} {l : List Ev} {r : Res}
    (h : seqLoop ev ctx st es acc fr c = .done l r) : Big E ctx (.seq st es acc fr) c l r := by
  induction es generalizing acc fr c l r with
  | nil => cases h; exact .seq_nil
  | cons e es ih =>
    obtain ⟨l1, r1, l2, h1, h2, rfl⟩ := andThen_done h
    have h1 := hev _ _ _ _ _ _ h1
    cases r1 with
    | ok v c' fr' => exact .seq_cons h1 (ih h2)
    | fail c' => cases h2; simpa using Big.seq_fail h1
    | panic p c' => cases h2; simpa using Big.seq_panic h1

theorem choiceLoop_big {ev : Eval} (hev : Sound E ev) {ctx : Ctx} {fr : VFrame} {es : List PExpr}
    {c : Cursor} {l : List Ev} {r : Res}
    (h : choiceLoop ev ctx fr es c = .done l r) : Big E ctx (.choice fr es) c l r := by
  induction es generalizing c l r with
  | nil => cases h; exact .choice_nil
  | cons e es ih =>
    obtain ⟨l1, r1, l2, h1, h2, rfl⟩ := andThen_done h
    have h1 := hev _ _ _ _ _ _ h1
    cases r1 with
    | ok v c' fr' => cases h2; simpa using Big.choice_ok h1
    | fail c' => exact .choice_next h1 (ih h2)
    | panic p c' => cases h2; simpa using Big.choice_panic h1

theorem repLoop_big {ev : Eval} (hev : Sound E ev) {ctx : Ctx} {fr : VFrame} {e : PExpr} {one : Bool}
    {k : Nat} {acc : List PV} {c : Cursor} {l : List Ev} {r : Res}
    (h : repLoop ev ctx fr e one k acc c = .done l r) : Big E ctx (.rep fr e one acc) c l r := by
  induction k generalizing acc c l r with
  | zero => cases h
  | succ k ih =>
    obtain ⟨l1, r1, l2, h1, h2, rfl⟩ := andThen_done h
    have h1 := hev _ _ _ _ _ _ h1
    cases r1 with
    | ok v c' fr' => exact .rep_next h1 (ih h2)
    | fail c' =>
      by_cases hc : one = true ∧ acc = []
      · dsimp only at h2
        rw [if_pos hc] at h2
        obtain ⟨rfl, rfl⟩ := hc
        cases h2
        simpa using Big.rep_fail h1
      · dsimp only at h2
        rw [if_neg hc] at h2
        cases h2
        simpa using Big.rep_stop h1 hc
    | panic p c' => cases h2; simpa using Big.rep_panic h1

theorem throwLoop_big {ev : Eval} (hev : Sound E ev) {ctx : Ctx} {x : FailLabel} {fr : VFrame}
    {rs : List (FailLabel × PExpr)} {c : Cursor} {l : List Ev} {r : Res}
    (h : throwLoop ev ctx x fr rs c = .done l r) : Big E ctx (.throw x fr rs) c l r := by
  induction rs generalizing c l r with
  | nil => cases h; exact .throw_nil
  | cons y rs ih =>
    obtain ⟨y, e⟩ := y
    unfold throwLoop at h
    split at h
    · rename_i hy
      subst hy
      obtain ⟨l1, r1, l2, h1, h2, rfl⟩ := andThen_done h
      have h1 := hev _ _ _ _ _ _ h1
      cases r1 with
      | ok v c' fr' => cases h2; simpa using Big.throw_ok h1
      | fail c' => exact .throw_next h1 (ih h2)
      | panic p c' => cases h2; simpa using Big.throw_panic h1
    · rename_i hy
      exact .throw_skip hy (ih h)

theorem step_big {k : Nat} {ev : Eval} (hev : Sound E ev) {ctx : Ctx} {e : PExpr} {fr : VFrame}
    {c : Cursor} {l : List Ev} {r : Res} (h : step E k ev ctx e fr c = .done l r) :
    Big E ctx (.expr e fr) c (.tick :: l) r := by
  cases e with
  | action a e =>
    obtain ⟨l1, r1, l2, h1, h2, rfl⟩ := andThen_done h
    have h1 := hev _ _ _ _ _ _ h1
    cases r1 with
    | ok v c' fr' =>
      dsimp only [actStep] at h2
      rcases ha : runAct E a fr' (textOf c c') c.loc with p | ⟨v', _ | er⟩ <;> rw [ha] at h2 <;>
        cases h2
      · simpa using Big.action_panic h1 ha
      · simpa using Big.action_ok h1 ha
      · exact Big.action_err h1 ha
    | fail c' => cases h2; simpa using Big.action_stop h1 trivial
    | panic p c' => cases h2; simpa using Big.action_stop h1 trivial
  | seq es => exact .seq (seqLoop_big hev h)
  | choice es => exact .choice (choiceLoop_big hev h)
  | label x e =>
    obtain ⟨l1, r1, l2, h1, h2, rfl⟩ := andThen_done h
    have h1 := hev _ _ _ _ _ _ h1
    cases r1 with
    | ok v c' fr' => cases h2; simpa using Big.label_ok h1
    | fail c' => cases h2; simpa using Big.label_stop h1 trivial
    | panic p c' => cases h2; simpa using Big.label_stop h1 trivial
  | rule x =>
    obtain ⟨l1, r1, l2, h1, h2, rfl⟩ := andThen_done h
    have h1 := hev _ _ _ _ _ _ h1
    cases r1 with
    | ok v c' fr' => cases h2; simpa using Big.rule_ok h1
    | fail c' => cases h2; simpa using Big.rule_stop h1 trivial
    | panic p c' => cases h2; simpa using Big.rule_stop h1 trivial
  | lit s ic w =>
    dsimp only [step] at h
    rcases hl : litLoop E ic s c with ⟨l', _ | c'⟩ <;> rw [hl] at h <;> cases h
    · exact .lit_fail hl
    · exact .lit_ok hl
  | cls chars ranges ic inv w =>
    dsimp only [step] at h
    split at h
    · rename_i hr
      cases h
      exact .cls_fail (by rw [hr]; intro s t h; cases h)
    · rename_i s t hr
      split at h
      · rename_i hm
        cases h
        exact .cls_ok hr hm
      · rename_i hm
        cases h
        refine .cls_fail ?_
        intro s' t' h'
        rw [hr] at h'
        cases h'
        simpa using hm
  | any =>
    dsimp only [step] at h
    split at h
    · rename_i hr
      cases h
      exact .any_eof hr
    · rename_i s t hr
      cases h
      exact .any_ok hr
  | not e =>
    obtain ⟨l1, r1, l2, h1, h2, rfl⟩ := andThen_done h
    have h1 := hev _ _ _ _ _ _ h1
    cases r1 with
    | ok v c' fr' => cases h2; simpa using Big.not_fail h1
    | fail c' => cases h2; simpa using Big.not_ok h1
    | panic p c' => cases h2; simpa using Big.not_panic h1
  | star e => exact .star (repLoop_big hev h)
  | plus e => exact .plus (repLoop_big hev h)
  | opt e =>
    obtain ⟨l1, r1, l2, h1, h2, rfl⟩ := andThen_done h
    have h1 := hev _ _ _ _ _ _ h1
    cases r1 with
    | ok v c' fr' => cases h2; simpa using Big.opt_ok h1
    | fail c' => cases h2; simpa using Big.opt_none h1
    | panic p c' => cases h2; simpa using Big.opt_panic h1
  | recover x e h' => exact .recover (hev _ _ _ _ _ _ h)
  | throw x => exact .throw (throwLoop_big hev h)
  | state s => cases h; exact .state

theorem run_big (f : Nat) : Sound E (run E f) := by
  induction f with
  | zero => intro ctx e fr c l r h; cases h
  | succ f ih =>
    intro ctx e fr c l r h
    obtain ⟨g, l', hg, rfl, h2⟩ := run_done h
    cases hg
    exact step_big ih h2

/-! ### The relation is computed by the interpreter -/

/-- The loop or expression evaluates to the result with all sufficient fuel. -/
def Computes (E : Env) (ctx : Ctx) (j : Job) (c : Cursor) (l : List Ev) (r : Res) : Prop :=
  ∃ n, ∀ f, n ≤ f →
    match j with
    | .expr e fr => run E f ctx e fr c = .done l r
    | .seq st es acc fr => seqLoop (run E f) ctx st es acc fr c = .done l r
    | .choice fr es => choiceLoop (run E f) ctx fr es c = .done l r
    | .rep fr e one acc => ∀ k, n ≤ k → repLoop (run E f) ctx fr e one k acc c = .done l r
    | .throw x fr rs => throwLoop (run E f) ctx x fr rs c = .done l r

theorem computes_expr {ctx : Ctx} {e : PExpr} {fr : VFrame} {c : Cursor} {l : List Ev} {r : Res}
    {n : Nat} (h : ∀ f, n ≤ f → step E f (run E f) ctx e fr c = .done l r) :
    Computes E ctx (.expr e fr) c (.tick :: l) r := by
  refine ⟨n + 1, fun f hf => ?_⟩
  obtain ⟨g, rfl⟩ : ∃ g, f = g + 1 := ⟨f - 1, by omega⟩
  exact run_of_step (h g (by omega))

theorem big_run {ctx : Ctx} {j : Job} {c : Cursor} {l : List Ev} {r : Res}
    (h : Big E ctx j c l r) : Computes E ctx j c l r := by
  induction h with
  | action_ok h ha ih =>
    obtain ⟨n, hn⟩ := ih
    exact computes_expr fun f hf => andThen_of_nil (hn f hf) (by simp only [actStep, ha])
  | action_err h ha ih =>
    obtain ⟨n, hn⟩ := ih
    exact computes_expr fun f hf => andThen_of (hn f hf) (by simp only [actStep, ha])
  | action_panic h ha ih =>
    obtain ⟨n, hn⟩ := ih
    exact computes_expr fun f hf => andThen_of_nil (hn f hf) (by simp only [actStep, ha])
  | @action_stop _ _ _ _ _ _ r h hs ih =>
    obtain ⟨n, hn⟩ := ih
    exact computes_expr fun f hf => andThen_of_nil (hn f hf) (by cases r <;> first | rfl | exact hs.elim)
  | seq h ih =>
    obtain ⟨n, hn⟩ := ih
    exact computes_expr fun f hf => hn f hf
  | seq_nil => exact ⟨0, fun f _ => rfl⟩
  | seq_cons h1 h2 ih1 ih2 =>
    obtain ⟨n1, hn1⟩ := ih1
    obtain ⟨n2, hn2⟩ := ih2
    exact ⟨max n1 n2, fun f hf => andThen_of (hn1 f (by omega)) (hn2 f (by omega))⟩
  | seq_fail h ih =>
    obtain ⟨n, hn⟩ := ih
    exact ⟨n, fun f hf => andThen_of_nil (hn f hf) rfl⟩
  | seq_panic h ih =>
    obtain ⟨n, hn⟩ := ih
    exact ⟨n, fun f hf => andThen_of_nil (hn f hf) rfl⟩
  | choice h ih =>
    obtain ⟨n, hn⟩ := ih
    exact computes_expr fun f hf => hn f hf
  | choice_nil => exact ⟨0, fun f _ => rfl⟩
  | choice_ok h ih =>
    obtain ⟨n, hn⟩ := ih
    exact ⟨n, fun f hf => andThen_of_nil (hn f hf) rfl⟩
  | choice_next h1 h2 ih1 ih2 =>
    obtain ⟨n1, hn1⟩ := ih1
    obtain ⟨n2, hn2⟩ := ih2
    exact ⟨max n1 n2, fun f hf => andThen_of (hn1 f (by omega)) (hn2 f (by omega))⟩
  | choice_panic h ih =>
    obtain ⟨n, hn⟩ := ih
    exact ⟨n, fun f hf => andThen_of_nil (hn f hf) rfl⟩
  | label_ok h ih =>
    obtain ⟨n, hn⟩ := ih
    exact computes_expr fun f hf => andThen_of_nil (hn f hf) rfl
  | @label_stop _ _ _ _ _ _ r h hs ih =>
    obtain ⟨n, hn⟩ := ih
    exact computes_expr fun f hf => andThen_of_nil (hn f hf) (by cases r <;> first | rfl | exact hs.elim)
  | rule_ok h ih =>
    obtain ⟨n, hn⟩ := ih
    exact computes_expr fun f hf => andThen_of_nil (hn f hf) rfl
  | @rule_stop _ _ _ _ _ r h hs ih =>
    obtain ⟨n, hn⟩ := ih
    exact computes_expr fun f hf => andThen_of_nil (hn f hf) (by cases r <;> first | rfl | exact hs.elim)
  | lit_ok h => exact computes_expr (n := 0) fun f _ => by simp only [step, h]
  | lit_fail h => exact computes_expr (n := 0) fun f _ => by simp only [step, h]
  | cls_ok hr hm => exact computes_expr (n := 0) fun f _ => by simp only [step, hr, hm, if_true]
  | @cls_fail _ _ _ _ _ _ _ c h =>
    refine computes_expr (n := 0) fun f _ => ?_
    rcases hr : c.rest with _ | ⟨s, t⟩
    · simp only [step, hr]
    · simp only [step, hr, h s t hr, Bool.false_eq_true, if_false]
  | any_ok hr => exact computes_expr (n := 0) fun f _ => by simp only [step, hr]
  | any_eof hr => exact computes_expr (n := 0) fun f _ => by simp only [step, hr]
  | not_ok h ih =>
    obtain ⟨n, hn⟩ := ih
    exact computes_expr fun f hf => andThen_of_nil (hn f hf) rfl
  | not_fail h ih =>
    obtain ⟨n, hn⟩ := ih
    exact computes_expr fun f hf => andThen_of_nil (hn f hf) rfl
  | not_panic h ih =>
    obtain ⟨n, hn⟩ := ih
    exact computes_expr fun f hf => andThen_of_nil (hn f hf) rfl
  | star h ih =>
    obtain ⟨n, hn⟩ := ih
    exact computes_expr fun f hf => hn f hf f hf
  | plus h ih =>
    obtain ⟨n, hn⟩ := ih
    exact computes_expr fun f hf => hn f hf f hf
  | rep_next h1 h2 ih1 ih2 =>
    obtain ⟨n1, hn1⟩ := ih1
    obtain ⟨n2, hn2⟩ := ih2
    refine ⟨max n1 (n2 + 1), fun f hf k hk => ?_⟩
    obtain ⟨k', rfl⟩ : ∃ k', k = k' + 1 := ⟨k - 1, by omega⟩
    exact andThen_of (hn1 f (by omega)) (hn2 f (by omega) k' (by omega))
  | rep_stop h hc ih =>
    obtain ⟨n, hn⟩ := ih
    refine ⟨n + 1, fun f hf k hk => ?_⟩
    obtain ⟨k', rfl⟩ : ∃ k', k = k' + 1 := ⟨k - 1, by omega⟩
    refine andThen_of_nil (hn f (by omega)) ?_
    dsimp only
    rw [if_neg hc]
  | rep_fail h ih =>
    obtain ⟨n, hn⟩ := ih
    refine ⟨n + 1, fun f hf k hk => ?_⟩
    obtain ⟨k', rfl⟩ : ∃ k', k = k' + 1 := ⟨k - 1, by omega⟩
    exact andThen_of_nil (hn f (by omega)) rfl
  | rep_panic h ih =>
    obtain ⟨n, hn⟩ := ih
    refine ⟨n + 1, fun f hf k hk => ?_⟩
    obtain ⟨k', rfl⟩ : ∃ k', k = k' + 1 := ⟨k - 1, by omega⟩
    exact andThen_of_nil (hn f (by omega)) rfl
  | opt_ok h ih =>
    obtain ⟨n, hn⟩ := ih
    exact computes_expr fun f hf => andThen_of_nil (hn f hf) rfl
  | opt_none h ih =>
    obtain ⟨n, hn⟩ := ih
    exact computes_expr fun f hf => andThen_of_nil (hn f hf) rfl
  | opt_panic h ih =>
    obtain ⟨n, hn⟩ := ih
    exact computes_expr fun f hf => andThen_of_nil (hn f hf) rfl
  | recover h ih =>
    obtain ⟨n, hn⟩ := ih
    exact computes_expr fun f hf => hn f hf
  | throw h ih =>
    obtain ⟨n, hn⟩ := ih
    exact computes_expr fun f hf => hn f hf
  | throw_nil => exact ⟨0, fun f _ => rfl⟩
  | throw_skip hne h ih =>
    obtain ⟨n, hn⟩ := ih
    refine ⟨n, fun f hf => ?_⟩
    dsimp only [throwLoop]
    rw [if_neg hne]
    exact hn f hf
  | throw_ok h ih =>
    obtain ⟨n, hn⟩ := ih
    refine ⟨n, fun f hf => ?_⟩
    dsimp only [throwLoop]
    rw [if_pos rfl]
    exact andThen_of_nil (hn f hf) rfl
  | throw_next h1 h2 ih1 ih2 =>
    obtain ⟨n1, hn1⟩ := ih1
    obtain ⟨n2, hn2⟩ := ih2
    refine ⟨max n1 n2, fun f hf => ?_⟩
    dsimp only [throwLoop]
    rw [if_pos rfl]
    exact andThen_of (hn1 f (by omega)) (hn2 f (by omega))
  | throw_panic h ih =>
    obtain ⟨n, hn⟩ := ih
    refine ⟨n, fun f hf => ?_⟩
    dsimp only [throwLoop]
    rw [if_pos rfl]
    exact andThen_of_nil (hn f hf) rfl
  | state => exact computes_expr (n := 0) fun f _ => rfl

/-- The relation is deterministic. -/
theorem Big.det {ctx : Ctx} {e : PExpr} {fr : VFrame} {c : Cursor} {l l' : List Ev} {r r' : Res}
    (h : Big E ctx (.expr e fr) c l r) (h' : Big E ctx (.expr e fr) c l' r') : l = l' ∧ r = r' := by
  obtain ⟨n, hn⟩ := big_run h
  obtain ⟨n', hn'⟩ := big_run h'
  have a := hn (max n n') (by omega)
  have b := hn' (max n n') (by omega)
  dsimp only at a b
  rw [a] at b
  cases b
  exact ⟨rfl, rfl⟩

end Aql
