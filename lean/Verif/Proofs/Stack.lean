import Verif.Model.Stack
import Verif.Proofs.FatalList
/-!
The depth of the recursion: the counting interpreter computes the results of `run`, its count does not depend
on the fuel, and an opening parenthesis leads seventeen activations further down.
-/

namespace Aql

variable {E : Env}

/-! ### The same results -/

def Out.res? : Out → Option Res
  | .oof => none
  | .done _ r => some r

theorem andThen_res? (o : Out) (k : Res → Out) : (o.andThen k).res? = o.res?.bind fun r => (k r).res? := by
  rcases o with _ | ⟨l, r⟩
  · rfl
  · simp only [Out.andThen, Out.res?, Option.bind_some]
    rcases k r with _ | ⟨l', r'⟩ <;> rfl

/-- The counting evaluation has the results of the other. -/
def SameRes (dv : DEval) (ev : Eval) : Prop := ∀ ctx e fr c, (dv ctx e fr c).map (·.1) = (ev ctx e fr c).res?

theorem map_deeper (d : Nat) (o : Option (Res × Nat)) : (deeper d o).map (·.1) = o.map (·.1) := by
  cases o <;> rfl

theorem dSeqLoop_same {dv : DEval} {ev : Eval} (h : SameRes dv ev) (ctx : Ctx) (st : Cursor) (es : List PExpr) :
    ∀ acc fr c, (dSeqLoop dv ctx st es acc fr c).map (·.1) = (seqLoop ev ctx st es acc fr c).res? := by
  induction es with
  | nil => intro acc fr c; rfl
  | cons e es ih =>
    intro acc fr c
    rw [seqLoop, andThen_res?, ← h ctx e fr c, dSeqLoop]
    rcases dv ctx e fr c with _ | ⟨r, d⟩
    · rfl
    · cases r with
      | ok v c' fr' => simp only [map_deeper, ih, Option.map_some, Option.bind_some]
      | fail c' => rfl
      | panic p c' => rfl

theorem dChoiceLoop_same {dv : DEval} {ev : Eval} (h : SameRes dv ev) (ctx : Ctx) (fr : VFrame)
    (es : List PExpr) : ∀ c, (dChoiceLoop dv ctx fr es c).map (·.1) = (choiceLoop ev ctx fr es c).res? := by
  induction es with
  | nil => intro c; rfl
  | cons e es ih =>
    intro c
    rw [choiceLoop, andThen_res?, ← h ctx e [] c, dChoiceLoop]
    rcases dv ctx e [] c with _ | ⟨r, d⟩
    · rfl
    · cases r with
      | ok v c' fr' => rfl
      | fail c' => simp only [map_deeper, ih, Option.map_some, Option.bind_some]
      | panic p c' => rfl

theorem dRepLoop_same {dv : DEval} {ev : Eval} (h : SameRes dv ev) (ctx : Ctx) (fr : VFrame) (e : PExpr)
    (one : Bool) (k : Nat) :
    ∀ acc c, (dRepLoop dv ctx fr e one k acc c).map (·.1) = (repLoop ev ctx fr e one k acc c).res? := by
  induction k with
  | zero => intro acc c; rfl
  | succ k ih =>
    intro acc c
    rw [repLoop, andThen_res?, ← h ctx e [] c, dRepLoop]
    rcases dv ctx e [] c with _ | ⟨r, d⟩
    · rfl
    · cases r with
      | ok v c' fr' => simp only [map_deeper, ih, Option.map_some, Option.bind_some]
      | fail c' => rfl
      | panic p c' => rfl

theorem dThrowLoop_same {dv : DEval} {ev : Eval} (h : SameRes dv ev) (ctx : Ctx) (x : FailLabel) (fr : VFrame)
    (rs : List (FailLabel × PExpr)) :
    ∀ c, (dThrowLoop dv ctx x fr rs c).map (·.1) = (throwLoop ev ctx x fr rs c).res? := by
  induction rs with
  | nil => intro c; rfl
  | cons p rs ih =>
    obtain ⟨l', e⟩ := p
    intro c
    rw [throwLoop, dThrowLoop]
    by_cases hl : l' = x
    · rw [if_pos hl, if_pos hl, andThen_res?, ← h ctx e fr c]
      rcases dv ctx e fr c with _ | ⟨r, d⟩
      · rfl
      · cases r with
        | ok v c' fr' => rfl
        | fail c' => simp only [map_deeper, ih, Option.map_some, Option.bind_some]
        | panic p c' => rfl
    · rw [if_neg hl, if_neg hl, ih]

theorem dStep_same {dv : DEval} {ev : Eval} (h : SameRes dv ev) (k : Nat) : SameRes (dStep E k dv) (step E k ev) := by
  intro ctx e fr c
  cases e with
  | action a e =>
    simp only [dStep, step, andThen_res?, ← h ctx e fr c]
    rcases dv ctx e fr c with _ | ⟨r, d⟩
    · rfl
    · cases r with
      | ok v c' fr' =>
        simp only [Option.map_some, Option.bind_some, actStep]
        rcases runAct E a fr' (textOf c c') c.loc with p | ⟨v, _ | er⟩ <;> rfl
      | fail c' => rfl
      | panic p c' => rfl
  | seq es => exact dSeqLoop_same h ctx c es [] fr c
  | choice es => exact dChoiceLoop_same h ctx fr es c
  | label x e =>
    simp only [dStep, step, andThen_res?, ← h ctx e [] c]
    rcases dv ctx e [] c with _ | ⟨r, d⟩
    · rfl
    · cases r <;> rfl
  | rule x =>
    simp only [dStep, step, andThen_res?, ← h ctx (grammar x) [] c]
    rcases dv ctx (grammar x) [] c with _ | ⟨r, d⟩
    · rfl
    · cases r <;> rfl
  | lit val ic want =>
    simp only [dStep, step]
    rcases litLoop E ic val c with ⟨l, _ | c'⟩ <;> rfl
  | cls chars ranges ic inv want =>
    simp only [dStep, step]
    rcases c.rest with _ | ⟨s, t⟩
    · rfl
    · dsimp only
      by_cases hm : clsMatch E chars ranges ic inv s.rune = true
      · rw [if_pos hm, if_pos hm]; rfl
      · rw [if_neg hm, if_neg hm]; rfl
  | any =>
    simp only [dStep, step]
    rcases c.rest with _ | ⟨s, t⟩ <;> rfl
  | not e =>
    simp only [dStep, step, andThen_res?, ← h _ e [] c]
    rcases dv { ctx with inv := !ctx.inv } e [] c with _ | ⟨r, d⟩
    · rfl
    · cases r <;> rfl
  | star e => exact dRepLoop_same h ctx fr e false k [] c
  | plus e => exact dRepLoop_same h ctx fr e true k [] c
  | opt e =>
    simp only [dStep, step, andThen_res?, ← h ctx e [] c]
    rcases dv ctx e [] c with _ | ⟨r, d⟩
    · rfl
    · cases r <;> rfl
  | recover x e hd => exact h _ e fr c
  | throw x => exact dThrowLoop_same h ctx x fr ctx.recov c
  | state s => rfl

theorem dRun_same (f : Nat) : SameRes (dRun E f) (run E f) := by
  induction f with
  | zero => intro ctx e fr c; rfl
  | succ f ih =>
    intro ctx e fr c
    rw [run, andThen_res?, dRun, Option.map_map]
    exact dStep_same ih f ctx e fr c

/-- A counted evaluation is an evaluation. -/
theorem dRun_big {f : Nat} {ctx : Ctx} {e : PExpr} {fr : VFrame} {c : Cursor} {r : Res} {d : Nat}
    (h : dRun E f ctx e fr c = some (r, d)) : ∃ l, Big E ctx (.expr e fr) c l r := by
  have hs := dRun_same f ctx e fr c (E := E)
  rw [h] at hs
  rcases hr : run E f ctx e fr c with _ | ⟨l, r'⟩
  · rw [hr] at hs; cases hs
  · rw [hr] at hs
    cases hs
    exact ⟨l, run_big f ctx e fr c l _ hr⟩

/-! ### The count and the fuel -/

def Within (k : Nat) (o : Option (Res × Nat)) : Prop := ∀ r d, o = some (r, d) → d ≤ k

theorem Within.deeper {k d : Nat} {o : Option (Res × Nat)} (hd : d ≤ k) (h : Within k o) : Within k (deeper d o) := by
  intro r n he
  rcases o with _ | ⟨r', d'⟩
  · cases he
  · simp only [Aql.deeper, Option.map_some, Option.some.injEq, Prod.mk.injEq] at he
    have := h r' d' rfl
    omega

theorem Within.some {k d : Nat} {r : Res} (h : d ≤ k) : Within k (some (r, d)) := by
  intro r n he; cases he; exact h

theorem Within.none {k : Nat} : Within k none := by intro r n he; cases he

theorem dSeqLoop_within {dv : DEval} {k : Nat} (h : ∀ ctx e fr c, Within k (dv ctx e fr c)) (ctx : Ctx) (st : Cursor)
    (es : List PExpr) : ∀ acc fr c, Within k (dSeqLoop dv ctx st es acc fr c) := by
  induction es with
  | nil => intro acc fr c; exact .some (Nat.zero_le _)
  | cons e es ih =>
    intro acc fr c
    rw [dSeqLoop]
    rcases hd : dv ctx e fr c with _ | ⟨r, d⟩
    · exact .none
    · have := h ctx e fr c r d hd
      cases r with
      | ok v c' fr' => exact .deeper this (ih _ _ _)
      | fail c' => exact .some this
      | panic p c' => exact .some this

theorem dChoiceLoop_within {dv : DEval} {k : Nat} (h : ∀ ctx e fr c, Within k (dv ctx e fr c)) (ctx : Ctx)
    (fr : VFrame) (es : List PExpr) : ∀ c, Within k (dChoiceLoop dv ctx fr es c) := by
  induction es with
  | nil => intro c; exact .some (Nat.zero_le _)
  | cons e es ih =>
    intro c
    rw [dChoiceLoop]
    rcases hd : dv ctx e [] c with _ | ⟨r, d⟩
    · exact .none
    · have := h ctx e [] c r d hd
      cases r with
      | ok v c' fr' => exact .some this
      | fail c' => exact .deeper this (ih _)
      | panic p c' => exact .some this

theorem dRepLoop_within {dv : DEval} {k : Nat} (h : ∀ ctx e fr c, Within k (dv ctx e fr c)) (ctx : Ctx) (fr : VFrame)
    (e : PExpr) (one : Bool) (n : Nat) : ∀ acc c, Within k (dRepLoop dv ctx fr e one n acc c) := by
  induction n with
  | zero => intro acc c; exact .none
  | succ n ih =>
    intro acc c
    rw [dRepLoop]
    rcases hd : dv ctx e [] c with _ | ⟨r, d⟩
    · exact .none
    · have := h ctx e [] c r d hd
      cases r with
      | ok v c' fr' => exact .deeper this (ih _ _)
      | fail c' => exact .some this
      | panic p c' => exact .some this

theorem dThrowLoop_within {dv : DEval} {k : Nat} (h : ∀ ctx e fr c, Within k (dv ctx e fr c)) (ctx : Ctx)
    (x : FailLabel) (fr : VFrame) (rs : List (FailLabel × PExpr)) :
    ∀ c, Within k (dThrowLoop dv ctx x fr rs c) := by
  induction rs with
  | nil => intro c; exact .some (Nat.zero_le _)
  | cons p rs ih =>
    obtain ⟨l', e⟩ := p
    intro c
    rw [dThrowLoop]
    by_cases hl : l' = x
    · rw [if_pos hl]
      rcases hd : dv ctx e fr c with _ | ⟨r, d⟩
      · exact .none
      · have := h ctx e fr c r d hd
        cases r with
        | ok v c' fr' => exact .some this
        | fail c' => exact .deeper this (ih _)
        | panic p c' => exact .some this
    · rw [if_neg hl]; exact ih _

theorem dStep_within {dv : DEval} {k : Nat} (h : ∀ ctx e fr c, Within k (dv ctx e fr c)) (n : Nat) (ctx : Ctx)
    (e : PExpr) (fr : VFrame) (c : Cursor) : Within k (dStep E n dv ctx e fr c) := by
  cases e with
  | action a e =>
    simp only [dStep]
    rcases hd : dv ctx e fr c with _ | ⟨r, d⟩
    · exact .none
    · have := h ctx e fr c r d hd
      cases r with
      | ok v c' fr' =>
        dsimp only
        rcases runAct E a fr' (textOf c c') c.loc with p | ⟨v, er⟩ <;> exact .some this
      | fail c' => exact .some this
      | panic p c' => exact .some this
  | seq es => exact dSeqLoop_within h ctx c es [] fr c
  | choice es => exact dChoiceLoop_within h ctx fr es c
  | label x e =>
    simp only [dStep]
    rcases hd : dv ctx e [] c with _ | ⟨r, d⟩
    · exact .none
    · have := h ctx e [] c r d hd
      cases r <;> exact .some this
  | rule x =>
    simp only [dStep]
    rcases hd : dv ctx (grammar x) [] c with _ | ⟨r, d⟩
    · exact .none
    · have := h ctx (grammar x) [] c r d hd
      cases r <;> exact .some this
  | lit val ic want =>
    simp only [dStep]
    rcases litLoop E ic val c with ⟨l, _ | c'⟩ <;> exact .some (Nat.zero_le _)
  | cls chars ranges ic inv want =>
    simp only [dStep]
    rcases c.rest with _ | ⟨s, t⟩
    · exact .some (Nat.zero_le _)
    · dsimp only
      by_cases hm : clsMatch E chars ranges ic inv s.rune = true
      · rw [if_pos hm]; exact .some (Nat.zero_le _)
      · rw [if_neg hm]; exact .some (Nat.zero_le _)
  | any =>
    simp only [dStep]
    rcases c.rest with _ | ⟨s, t⟩ <;> exact .some (Nat.zero_le _)
  | not e =>
    simp only [dStep]
    rcases hd : dv { ctx with inv := !ctx.inv } e [] c with _ | ⟨r, d⟩
    · exact .none
    · have := h _ e [] c r d hd
      cases r <;> exact .some this
  | star e => exact dRepLoop_within h ctx fr e false n [] c
  | plus e => exact dRepLoop_within h ctx fr e true n [] c
  | opt e =>
    simp only [dStep]
    rcases hd : dv ctx e [] c with _ | ⟨r, d⟩
    · exact .none
    · have := h ctx e [] c r d hd
      cases r <;> exact .some this
  | recover x e hd => exact h _ e fr c
  | throw x => exact dThrowLoop_within h ctx x fr ctx.recov c
  | state s => exact .some (Nat.zero_le _)

/-- The fuel bounds the count. -/
theorem dRun_within (f : Nat) : ∀ ctx e fr c, Within f (dRun E f ctx e fr c) := by
  induction f with
  | zero => intro ctx e fr c; exact .none
  | succ f ih =>
    intro ctx e fr c r d h
    rw [dRun] at h
    rcases hd : dStep E f (dRun E f) ctx e fr c with _ | ⟨r', d'⟩
    · rw [hd] at h; cases h
    · rw [hd] at h
      cases h
      exact Nat.succ_le_succ (dStep_within ih f ctx e fr c r' d' hd)

/-! ### More fuel changes nothing -/

def Keeps (o o' : Option (Res × Nat)) : Prop := ∀ x, o = some x → o' = some x

theorem Keeps.rfl {o : Option (Res × Nat)} : Keeps o o := fun _ h => h

theorem Keeps.none {o : Option (Res × Nat)} : Keeps none o := by intro x h; cases h

theorem Keeps.deeper {o o' : Option (Res × Nat)} (h : Keeps o o') (d : Nat) : Keeps (deeper d o) (deeper d o') := by
  intro x hx
  rcases o with _ | y
  · cases hx
  · rw [h y (Eq.refl _)]; exact hx

theorem dSeqLoop_keeps {dv dv' : DEval} (h : ∀ ctx e fr c, Keeps (dv ctx e fr c) (dv' ctx e fr c)) (ctx : Ctx)
    (st : Cursor) (es : List PExpr) :
    ∀ acc fr c, Keeps (dSeqLoop dv ctx st es acc fr c) (dSeqLoop dv' ctx st es acc fr c) := by
  induction es with
  | nil => intro acc fr c; exact .rfl
  | cons e es ih =>
    intro acc fr c
    rw [dSeqLoop, dSeqLoop]
    rcases hd : dv ctx e fr c with _ | ⟨r, d⟩
    · exact .none
    · rw [h ctx e fr c _ hd]
      cases r with
      | ok v c' fr' => exact .deeper (ih _ _ _) d
      | fail c' => exact .rfl
      | panic p c' => exact .rfl

theorem dChoiceLoop_keeps {dv dv' : DEval} (h : ∀ ctx e fr c, Keeps (dv ctx e fr c) (dv' ctx e fr c)) (ctx : Ctx)
    (fr : VFrame) (es : List PExpr) :
    ∀ c, Keeps (dChoiceLoop dv ctx fr es c) (dChoiceLoop dv' ctx fr es c) := by
  induction es with
  | nil => intro c; exact .rfl
  | cons e es ih =>
    intro c
    rw [dChoiceLoop, dChoiceLoop]
    rcases hd : dv ctx e [] c with _ | ⟨r, d⟩
    · exact .none
    · rw [h ctx e [] c _ hd]
      cases r with
      | ok v c' fr' => exact .rfl
      | fail c' => exact .deeper (ih _) d
      | panic p c' => exact .rfl

theorem dRepLoop_keeps {dv dv' : DEval} (h : ∀ ctx e fr c, Keeps (dv ctx e fr c) (dv' ctx e fr c)) (ctx : Ctx)
    (fr : VFrame) (e : PExpr) (one : Bool) {n n' : Nat} (hn : n ≤ n') :
    ∀ acc c, Keeps (dRepLoop dv ctx fr e one n acc c) (dRepLoop dv' ctx fr e one n' acc c) := by
  induction n generalizing n' with
  | zero => intro acc c; exact .none
  | succ n ih =>
    intro acc c
    obtain ⟨m, rfl⟩ : ∃ m, n' = m + 1 := ⟨n' - 1, by omega⟩
    rw [dRepLoop, dRepLoop]
    rcases hd : dv ctx e [] c with _ | ⟨r, d⟩
    · exact .none
    · rw [h ctx e [] c _ hd]
      cases r with
      | ok v c' fr' => exact .deeper (ih (by omega) _ _) d
      | fail c' => exact .rfl
      | panic p c' => exact .rfl

theorem dThrowLoop_keeps {dv dv' : DEval} (h : ∀ ctx e fr c, Keeps (dv ctx e fr c) (dv' ctx e fr c)) (ctx : Ctx)
    (x : FailLabel) (fr : VFrame) (rs : List (FailLabel × PExpr)) :
    ∀ c, Keeps (dThrowLoop dv ctx x fr rs c) (dThrowLoop dv' ctx x fr rs c) := by
  induction rs with
  | nil => intro c; exact .rfl
  | cons p rs ih =>
    obtain ⟨l', e⟩ := p
    intro c
    rw [dThrowLoop, dThrowLoop]
    by_cases hl : l' = x
    · rw [if_pos hl, if_pos hl]
      rcases hd : dv ctx e fr c with _ | ⟨r, d⟩
      · exact .none
      · rw [h ctx e fr c _ hd]
        cases r with
        | ok v c' fr' => exact .rfl
        | fail c' => exact .deeper (ih _) d
        | panic p c' => exact .rfl
    · rw [if_neg hl, if_neg hl]; exact ih _

theorem dStep_keeps {dv dv' : DEval} (h : ∀ ctx e fr c, Keeps (dv ctx e fr c) (dv' ctx e fr c)) {n n' : Nat}
    (hn : n ≤ n') (ctx : Ctx) (e : PExpr) (fr : VFrame) (c : Cursor) :
    Keeps (dStep E n dv ctx e fr c) (dStep E n' dv' ctx e fr c) := by
  cases e with
  | action a e =>
    simp only [dStep]
    rcases hd : dv ctx e fr c with _ | x
    · exact .none
    · rw [h ctx e fr c _ hd]; exact .rfl
  | seq es => exact dSeqLoop_keeps h ctx c es [] fr c
  | choice es => exact dChoiceLoop_keeps h ctx fr es c
  | label x e =>
    simp only [dStep]
    rcases hd : dv ctx e [] c with _ | x
    · exact .none
    · rw [h ctx e [] c _ hd]; exact .rfl
  | rule x =>
    simp only [dStep]
    rcases hd : dv ctx (grammar x) [] c with _ | x
    · exact .none
    · rw [h ctx _ [] c _ hd]; exact .rfl
  | lit val ic want => exact .rfl
  | cls chars ranges ic inv want => exact .rfl
  | any => exact .rfl
  | not e =>
    simp only [dStep]
    rcases hd : dv { ctx with inv := !ctx.inv } e [] c with _ | x
    · exact .none
    · rw [h _ e [] c _ hd]; exact .rfl
  | star e => exact dRepLoop_keeps h ctx fr e false hn [] c
  | plus e => exact dRepLoop_keeps h ctx fr e true hn [] c
  | opt e =>
    simp only [dStep]
    rcases hd : dv ctx e [] c with _ | x
    · exact .none
    · rw [h ctx e [] c _ hd]; exact .rfl
  | recover x e hd => exact h _ e fr c
  | throw x => exact dThrowLoop_keeps h ctx x fr ctx.recov c
  | state s => exact .rfl

theorem dRun_keeps {f f' : Nat} (hf : f ≤ f') : ∀ ctx e fr c, Keeps (dRun E f ctx e fr c) (dRun E f' ctx e fr c) := by
  induction f generalizing f' with
  | zero => intro ctx e fr c; exact .none
  | succ f ih =>
    intro ctx e fr c x hx
    obtain ⟨m, rfl⟩ : ∃ m, f' = m + 1 := ⟨f' - 1, by omega⟩
    rw [dRun] at hx ⊢
    rcases hd : dStep E f (dRun E f) ctx e fr c with _ | y
    · rw [hd] at hx; cases hx
    · rw [dStep_keeps (ih (by omega : f ≤ m)) (by omega : f ≤ m) ctx e fr c y hd]
      rw [hd] at hx
      exact hx

/-- The count exists and is at most forty for every rune, and 39. -/
theorem stackDepth_le (input : List Sym) : ∃ d, stackDepth E input = some d ∧ d ≤ input.length * 40 + 39 := by
  have hc : cost (grammar .Start) ≤ 39 := by decide
  have h : run E (input.length * 40 + 39) ⟨false, []⟩ (grammar .Start) [] (.init input) ≠ .oof := by
    refine run_enough _ _ _ _ _ (grammar_wf _) (by intro p hp; cases hp) ?_
    simp only [Enough, Cursor.init]
    omega
  have hs := dRun_same (E := E) (input.length * 40 + 39) ⟨false, []⟩ (grammar .Start) [] (.init input)
  rcases hd : dRun E (input.length * 40 + 39) ⟨false, []⟩ (grammar .Start) [] (.init input) with _ | ⟨r, d⟩
  · rw [hd] at hs
    rcases hr : run E (input.length * 40 + 39) ⟨false, []⟩ (grammar .Start) [] (.init input) with _ | ⟨l, r⟩
    · exact absurd hr h
    · rw [hr] at hs; cases hs
  · refine ⟨d, ?_, dRun_within _ _ _ _ _ r d hd⟩
    have hk := dRun_keeps (E := E) (f' := depthBound input.length) (by unfold depthBound; omega) _ _ _ _ _ hd
    rw [stackDepth, hk]
    rfl

/-! ### Going down -/

theorem dRun_succ {f : Nat} {ctx : Ctx} {e : PExpr} {fr : VFrame} {c : Cursor} {r : Res} {d : Nat}
    (h : dRun E f ctx e fr c = some (r, d)) :
    ∃ g k, f = g + 1 ∧ d = k + 1 ∧ dStep E g (dRun E g) ctx e fr c = some (r, k) := by
  cases f with
  | zero => cases h
  | succ g =>
    rw [dRun] at h
    rcases hd : dStep E g (dRun E g) ctx e fr c with _ | ⟨r', k⟩
    · rw [hd] at h; cases h
    · rw [hd] at h; cases h; exact ⟨g, k, rfl, rfl, hd⟩

/-- Every evaluation of `e` at `c` contains one of `e'` at `c'`, `n` activations further down. -/
def Leads (E : Env) (ctx : Ctx) (e : PExpr) (fr : VFrame) (c : Cursor) (n : Nat) (e' : PExpr) (fr' : VFrame)
    (c' : Cursor) : Prop :=
  ∀ f r d, dRun E f ctx e fr c = some (r, d) → ∃ f' r' d', dRun E f' ctx e' fr' c' = some (r', d') ∧ d' + n ≤ d

theorem Leads.trans {ctx : Ctx} {e e' e'' : PExpr} {fr fr' fr'' : VFrame} {c c' c'' : Cursor} {n m k : Nat}
    (h : Leads E ctx e fr c n e' fr' c') (h' : Leads E ctx e' fr' c' m e'' fr'' c'') (hk : k = n + m := by rfl) :
    Leads E ctx e fr c k e'' fr'' c'' := by
  intro f r d hd
  obtain ⟨f1, r1, d1, h1, hn⟩ := h f r d hd
  obtain ⟨f2, r2, d2, h2, hm⟩ := h' f1 r1 d1 h1
  exact ⟨f2, r2, d2, h2, by omega⟩

theorem leads_action {ctx : Ctx} {a : Act} {e : PExpr} {fr : VFrame} {c : Cursor} :
    Leads E ctx (.action a e) fr c 1 e fr c := by
  intro f r d hd
  obtain ⟨g, k, rfl, rfl, h⟩ := dRun_succ hd
  simp only [dStep] at h
  rcases he : dRun E g ctx e fr c with _ | ⟨r', d'⟩
  · rw [he] at h; cases h
  · refine ⟨g, r', d', he, ?_⟩
    rw [he] at h
    cases r' with
    | ok v c' fr' =>
      dsimp only at h
      rcases hr : runAct E a fr' (textOf c c') c.loc with p | ⟨v, er⟩
      · rw [hr] at h; cases h; exact Nat.le_refl _
      · rw [hr] at h; cases h; exact Nat.le_refl _
    | fail c' => cases h; exact Nat.le_refl _
    | panic p c' => cases h; exact Nat.le_refl _

theorem leads_label {ctx : Ctx} {x : PLabel} {e : PExpr} {fr : VFrame} {c : Cursor} :
    Leads E ctx (.label x e) fr c 1 e [] c := by
  intro f r d hd
  obtain ⟨g, k, rfl, rfl, h⟩ := dRun_succ hd
  simp only [dStep] at h
  rcases he : dRun E g ctx e [] c with _ | ⟨r', d'⟩
  · rw [he] at h; cases h
  · refine ⟨g, r', d', he, ?_⟩
    rw [he] at h
    cases r' <;> cases h <;> exact Nat.le_refl _

theorem leads_rule {ctx : Ctx} {x : Rule} {fr : VFrame} {c : Cursor} :
    Leads E ctx (.rule x) fr c 1 (grammar x) [] c := by
  intro f r d hd
  obtain ⟨g, k, rfl, rfl, h⟩ := dRun_succ hd
  simp only [dStep] at h
  rcases he : dRun E g ctx (grammar x) [] c with _ | ⟨r', d'⟩
  · rw [he] at h; cases h
  · refine ⟨g, r', d', he, ?_⟩
    rw [he] at h
    cases r' <;> cases h <;> exact Nat.le_refl _

theorem deeper_some {d : Nat} {o : Option (Res × Nat)} {r : Res} {k : Nat} (h : deeper d o = some (r, k)) :
    ∃ k', o = some (r, k') ∧ d ≤ k ∧ k' ≤ k := by
  rcases o with _ | ⟨r', k'⟩
  · cases h
  · simp only [deeper, Option.map_some, Option.some.injEq, Prod.mk.injEq] at h
    obtain ⟨rfl, rfl⟩ := h
    exact ⟨k', rfl, by omega, by omega⟩

theorem leads_choice {ctx : Ctx} {e : PExpr} {es : List PExpr} {fr : VFrame} {c : Cursor} :
    Leads E ctx (.choice (e :: es)) fr c 1 e [] c := by
  intro f r d hd
  obtain ⟨g, k, rfl, rfl, h⟩ := dRun_succ hd
  simp only [dStep, dChoiceLoop] at h
  rcases he : dRun E g ctx e [] c with _ | ⟨r', d'⟩
  · rw [he] at h; cases h
  · refine ⟨g, r', d', he, ?_⟩
    rw [he] at h
    cases r' with
    | ok v c' fr' => cases h; exact Nat.le_refl _
    | fail c' => obtain ⟨_, _, hk, _⟩ := deeper_some h; omega
    | panic p c' => cases h; exact Nat.le_refl _

/-- The second alternative, if the first fails. -/
theorem leads_choice_next {ctx : Ctx} {e e' : PExpr} {es : List PExpr} {fr : VFrame} {c : Cursor}
    (hf : ∀ l r, Big E ctx (.expr e []) c l r → ∃ c', r = .fail c') :
    Leads E ctx (.choice (e :: e' :: es)) fr c 1 e' [] c := by
  intro f r d hd
  obtain ⟨g, k, rfl, rfl, h⟩ := dRun_succ hd
  simp only [dStep] at h
  rw [dChoiceLoop] at h
  rcases he : dRun E g ctx e [] c with _ | ⟨r0, d0⟩
  · rw [he] at h; cases h
  · obtain ⟨l, hb⟩ := dRun_big he
    obtain ⟨c0, rfl⟩ := hf l r0 hb
    have := hb.fail_back
    subst this
    rw [he] at h
    dsimp only at h
    obtain ⟨k', h', _, hk'⟩ := deeper_some h
    rw [dChoiceLoop] at h'
    rcases he' : dRun E g ctx e' [] c0 with _ | ⟨r', d'⟩
    · rw [he'] at h'; cases h'
    · refine ⟨g, r', d', he', ?_⟩
      rw [he'] at h'
      cases r' with
      | ok v c' fr' => cases h'; omega
      | fail c' => obtain ⟨_, _, hk, _⟩ := deeper_some h'; omega
      | panic p c' => cases h'; omega

theorem leads_seq {ctx : Ctx} {e : PExpr} {es : List PExpr} {fr : VFrame} {c : Cursor} :
    Leads E ctx (.seq (e :: es)) fr c 1 e fr c := by
  intro f r d hd
  obtain ⟨g, k, rfl, rfl, h⟩ := dRun_succ hd
  simp only [dStep, dSeqLoop] at h
  rcases he : dRun E g ctx e fr c with _ | ⟨r', d'⟩
  · rw [he] at h; cases h
  · refine ⟨g, r', d', he, ?_⟩
    rw [he] at h
    cases r' with
    | ok v c' fr' => obtain ⟨_, _, hk, _⟩ := deeper_some h; omega
    | fail c' => cases h; exact Nat.le_refl _
    | panic p c' => cases h; exact Nat.le_refl _

/-- An element of a sequence, if those before it match. -/
theorem leads_elem {ctx : Ctx} {st : Cursor} {e : PExpr} {es : List PExpr} (pre : List PExpr) {c' : Cursor}
    {fr' : VFrame} : ∀ (acc : List PV) (fr : VFrame) (c : Cursor),
    (∃ l v, Big E ctx (.seq st pre acc fr) c l (.ok v c' fr')) →
    ∀ g r k, dSeqLoop (dRun E g) ctx st (pre ++ e :: es) acc fr c = some (r, k) →
    ∃ r' d', dRun E g ctx e fr' c' = some (r', d') ∧ d' ≤ k := by
  induction pre with
  | nil =>
    rintro acc fr c ⟨l, v, hb⟩ g r k h
    cases hb
    rw [List.nil_append, dSeqLoop] at h
    rcases he : dRun E g ctx e fr' c' with _ | ⟨r', d'⟩
    · rw [he] at h; cases h
    · refine ⟨r', d', rfl, ?_⟩
      rw [he] at h
      cases r' with
      | ok v c' fr' => obtain ⟨_, _, hk, _⟩ := deeper_some h; omega
      | fail c' => cases h; exact Nat.le_refl _
      | panic p c' => cases h; exact Nat.le_refl _
  | cons p pre ih =>
    rintro acc fr c ⟨l, v, hb⟩ g r k h
    cases hb with
    | seq_cons h1 h2 =>
      rw [List.cons_append, dSeqLoop] at h
      rcases he : dRun E g ctx p fr c with _ | ⟨r', d'⟩
      · rw [he] at h; cases h
      · obtain ⟨l', hb'⟩ := dRun_big he
        obtain ⟨_, rfl⟩ := Big.det h1 hb'
        rw [he] at h
        dsimp only at h
        obtain ⟨k', h', _, hk'⟩ := deeper_some h
        obtain ⟨r'', d'', h'', hd''⟩ := ih _ _ _ ⟨_, _, h2⟩ g r k' h'
        exact ⟨r'', d'', h'', by omega⟩

theorem leads_seq_at {ctx : Ctx} {e : PExpr} {es : List PExpr} {fr : VFrame} {c : Cursor} (pre : List PExpr)
    {c' : Cursor} {fr' : VFrame} (hb : ∃ l v, Big E ctx (.seq c pre [] fr) c l (.ok v c' fr')) :
    Leads E ctx (.seq (pre ++ e :: es)) fr c 1 e fr' c' := by
  intro f r d hd
  obtain ⟨g, k, rfl, rfl, h⟩ := dRun_succ hd
  simp only [dStep] at h
  obtain ⟨r', d', h', hk⟩ := leads_elem pre [] fr c hb g r k h
  exact ⟨g, r', d', h', by omega⟩

/-! ### Parentheses -/

/-- No space is skipped at an opening parenthesis. -/
theorem ws_at_paren {ctx : Ctx} {fr : VFrame} {c : Cursor} (hp : AtParen c) :
    ∃ l v, Big E ctx (.expr (.rule .ws) fr) c l (.ok v c fr) := by
  obtain ⟨s, t, hr, hs⟩ := hp
  refine ⟨_, _, .rule_ok (.star (.rep_stop (.cls_fail ?_) (by simp)))⟩
  intro s' t' hr'
  rw [hr] at hr'
  cases hr'
  rw [hs]
  rfl

theorem paren_at_paren {ctx : Ctx} {w : Str} {fr : VFrame} {c : Cursor} (hp : AtParen c) :
    ∃ l v, Big E ctx (.expr (.lit ['('] false w) fr) c l (.ok v c.next fr) := by
  obtain ⟨s, t, hr, hs⟩ := hp
  exact ⟨_, _, .lit_ok (by simp only [litLoop, hr, hs]; rfl)⟩

theorem not_at_paren {ctx : Ctx} {a : Act} {es : List PExpr} {c : Cursor} (hp : AtParen c) {l : List Ev} {r : Res}
    (h : Big E ctx (.expr (.action a (.seq (.rule .logicalNOT :: es))) []) c l r) : ∃ c', r = .fail c' := by
  have hn : ∀ l r fr, Big E ctx (.expr (.rule .logicalNOT) fr) c l r → ∃ c', r = .fail c' := by
    intro l r fr h
    cases h with
    | rule_ok h => obtain ⟨_, h⟩ := (h.rejects hp).1 (by decide); cases h
    | rule_stop h hs => exact (h.rejects hp).1 (by decide)
  have hq : ∀ l r, Big E ctx (.expr (.seq (.rule .logicalNOT :: es)) []) c l r → ∃ c', r = .fail c' := by
    intro l r h
    cases h with
    | seq h =>
      cases h with
      | seq_cons h1 h2 => obtain ⟨_, h⟩ := hn _ _ _ h1; cases h
      | seq_fail h => exact ⟨_, rfl⟩
      | seq_panic h => obtain ⟨_, h⟩ := hn _ _ _ h; cases h
  cases h with
  | action_ok h ha => obtain ⟨_, h⟩ := hq _ _ h; cases h
  | action_err h ha => obtain ⟨_, h⟩ := hq _ _ h; cases h
  | action_panic h ha => obtain ⟨_, h⟩ := hq _ _ h; cases h
  | action_stop h hs => exact hq _ _ h

/-- From a clause down to what is in its parentheses. -/
theorem leads_paren {ctx : Ctx} {fr : VFrame} {c : Cursor} (hp : AtParen c) :
    Leads E ctx (.rule .OrClause) fr c 16 (.lit ['('] false "\"(\"".toList) [] c ∧
    (AtParen c.next → Leads E ctx (.rule .OrClause) fr c 17 (.rule .OrClause) [] c.next) := by
  have h1 : Leads E ctx (.rule .OrClause) fr c 10 (.rule .NotClause) [] c :=
    leads_rule.trans <| leads_choice.trans <| leads_action.trans <| leads_seq.trans <| leads_label.trans <|
    leads_rule.trans <| leads_choice.trans <| leads_action.trans <| leads_seq.trans leads_label
  have h2 : Leads E ctx (.rule .NotClause) [] c 4
      (.action .onComparison2
        (.seq [.lit ['('] false "\"(\"".toList, .rule .ws, .label .query (.rule .OrClause), .rule .ws,
          .lit [')'] false "\")\"".toList])) [] c :=
    leads_rule.trans <| (leads_choice_next fun l r h => not_at_paren hp h).trans <|
    leads_rule.trans leads_choice
  refine ⟨(h1.trans h2 (k := 14)).trans (leads_action.trans leads_seq (k := 2)), fun hp' => ?_⟩
  obtain ⟨l, v, hb⟩ := paren_at_paren (E := E) (ctx := ctx) (w := "\"(\"".toList) (fr := []) hp
  obtain ⟨l', v', hb'⟩ := ws_at_paren (E := E) (ctx := ctx) (fr := []) hp'
  have h3 := leads_seq_at (E := E) (ctx := ctx) (e := .label .query (.rule .OrClause))
    (es := [.rule .ws, .lit [')'] false "\")\"".toList]) (fr := []) (c := c)
    [.lit ['('] false "\"(\"".toList, .rule .ws] ⟨_, _, .seq_cons hb (.seq_cons hb' .seq_nil)⟩
  exact (h1.trans h2 (k := 14)).trans (leads_action.trans (h3.trans leads_label (k := 2)) (k := 3))

/-- A clause that begins with `n` parentheses. -/
theorem depth_parens {ctx : Ctx} (n : Nat) : ∀ (fr : VFrame) (c : Cursor) (p t : List Sym),
    c.rest = p ++ t → p.length = n → (∀ s ∈ p, s.rune = '(') → ∀ f r d,
    dRun E f ctx (.rule .OrClause) fr c = some (r, d) → 17 * n ≤ d := by
  induction n with
  | zero => intro fr c p t _ _ _ f r d _; omega
  | succ n ih =>
    intro fr c p t hr hl hs f r d hd
    obtain ⟨s, p, rfl⟩ : ∃ s p', p = s :: p' := by
      cases p with
      | nil => cases hl
      | cons s p => exact ⟨s, p, rfl⟩
    have hp : AtParen c := ⟨s, p ++ t, hr, hs s (by simp)⟩
    have hn : c.next.rest = p ++ t := next_rest hr
    cases p with
    | nil =>
      obtain ⟨f', r', d', h', hle⟩ := (leads_paren hp).1 f r d hd
      obtain ⟨_, k, _, hk, _⟩ := dRun_succ h'
      simp only [List.length_cons, List.length_nil] at hl
      omega
    | cons s' p =>
      have hp' : AtParen c.next := ⟨s', p ++ t, hn, hs s' (by simp)⟩
      obtain ⟨f', r', d', h', hle⟩ := (leads_paren hp).2 hp' f r d hd
      have := ih [] c.next (s' :: p) t hn (by simpa using hl) (fun x hx => hs x (by simp [hx])) f' r' d' h'
      omega

/-- A text that begins with `n` parentheses. -/
theorem stackDepth_parens (p t : List Sym) (hs : ∀ s ∈ p, s.rune = '(') (d : Nat)
    (hd : stackDepth E (p ++ t) = some d) : 17 * p.length ≤ d := by
  cases p with
  | nil => simp
  | cons s p =>
    rw [stackDepth] at hd
    rcases hr : dRun E (depthBound (s :: p ++ t).length) ⟨false, []⟩ (grammar .Start) [] (.init (s :: p ++ t)) with
      _ | ⟨r, d'⟩
    · rw [hr] at hd; cases hd
    · rw [hr] at hd
      cases hd
      have hp : AtParen (.init (s :: p ++ t)) := ⟨s, p ++ t, rfl, hs s (by simp)⟩
      obtain ⟨l, v, hb⟩ := ws_at_paren (E := E) (ctx := ⟨false, []⟩) (fr := []) hp
      have h1 := leads_seq_at (E := E) (e := .label .clause (.rule .OrClause)) (es := [.rule .ws]) (fr := [])
        [.rule .ws] ⟨_, _, .seq_cons hb .seq_nil⟩
      have h2 : Leads E ⟨false, []⟩ (grammar .Start) [] (.init (s :: p ++ t)) 7 (.rule .OrClause) []
          (.init (s :: p ++ t)) :=
        leads_action.trans <| leads_seq.trans <| leads_label.trans <| leads_rule.trans <| leads_action.trans <|
        h1.trans leads_label
      obtain ⟨f', r', d'', h', hle⟩ := h2 _ _ _ hr
      have := depth_parens (E := E) (s :: p).length [] (.init (s :: p ++ t)) (s :: p) t rfl rfl hs f' r' d'' h'
      show _ ≤ d'
      omega

end Aql
