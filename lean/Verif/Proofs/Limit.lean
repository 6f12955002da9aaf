import Verif.Model.Options
import Verif.Proofs.CostBound
/-!
The run with `MaxExpressions` and without `Memoize`, compared with the run without options.
-/

namespace Aql

variable {E : Env}

/-- The count is within the maximum, or there is none. -/
def LimGood (L : Nat) (s : PState) : Prop := L = maxUint64 ∨ s.cnt ≤ L

/-- The two runs agree, or the second one stops when the count exceeds the maximum. -/
def LimRel (L : Nat) (s : PState) (o : Out) (o' : OOut) : Prop :=
  ∀ log r, o = .done log r → ∃ s',
    (o' = .done log (.ofRes r) s' ∧ (L = maxUint64 ∨ (s'.cnt = s.cnt + ticks log ∧ s'.cnt ≤ L))) ∨
    (L ≠ maxUint64 ∧ ∃ pre suf c, log = pre ++ .tick :: suf ∧ s.cnt + ticks pre = L ∧
      o' = .done pre (.panic none c) s')

theorem limRel_done {L : Nat} {s : PState} (h : LimGood L s) {log : List Ev} (hl : ticks log = 0) (r : Res) :
    LimRel L s (.done log r) (.done log (.ofRes r) s) := by
  intro l r' he
  cases he
  refine ⟨s, .inl ⟨rfl, ?_⟩⟩
  rcases h with h | h
  · exact .inl h
  · exact .inr ⟨by omega, h⟩

theorem limRel_oof {L : Nat} {s : PState} {o' : OOut} : LimRel L s .oof o' := by
  intro l r h; cases h

theorem limRel_andThen {L : Nat} {s : PState} {o : Out} {o' : OOut} {k : Res → Out}
    {k' : ORes → PState → OOut} (h : LimRel L s o o')
    (hk : ∀ r s', LimGood L s' → LimRel L s' (k r) (k' (.ofRes r) s'))
    (hp : ∀ c s', k' (.panic none c) s' = .done [] (.panic none c) s') :
    LimRel L s (o.andThen k) (o'.andThen k') := by
  intro log r he
  rcases o with _ | ⟨l, r0⟩
  · cases he
  · obtain ⟨s1, ⟨ho, hg⟩ | ⟨hL, pre, suf, c, hl, hc, ho⟩⟩ := h l r0 rfl
    · rcases hkr : k r0 with _ | ⟨l2, r2⟩
      · simp [Out.andThen, hkr] at he
      · simp only [Out.andThen, hkr] at he
        cases he
        have hg1 : LimGood L s1 := by
          rcases hg with hg | hg
          · exact .inl hg
          · exact .inr hg.2
        obtain ⟨s2, ⟨h2, hg2⟩ | ⟨hL, pre, suf, c, hl, hc, h2⟩⟩ := hk r0 s1 hg1 l2 r hkr
        · refine ⟨s2, .inl ⟨?_, ?_⟩⟩
          · rw [ho]; simp [OOut.andThen, h2]
          · rcases hg2 with hg2 | hg2
            · exact .inl hg2
            · rcases hg with hg | hg
              · exact .inl hg
              · exact .inr ⟨by rw [ticks_append]; omega, hg2.2⟩
        · refine ⟨s2, .inr ⟨hL, l ++ pre, suf, c, by rw [hl, List.append_assoc], ?_, ?_⟩⟩
          · rcases hg with hg | hg
            · exact absurd hg hL
            · rw [ticks_append]; omega
          · rw [ho]; simp [OOut.andThen, h2]
    · rcases hkr : k r0 with _ | ⟨l2, r2⟩
      · simp [Out.andThen, hkr] at he
      · simp only [Out.andThen, hkr] at he
        cases he
        refine ⟨s1, .inr ⟨hL, pre, suf ++ l2, c, by rw [hl]; simp, hc, ?_⟩⟩
        rw [ho]; simp [OOut.andThen, hp]

/-- The context without addresses. -/
def OCtx.forget (ctx : OCtx) : Ctx := ⟨ctx.inv, ctx.recov.map fun x => (x.1, x.2.2)⟩

/-- The evaluations of sub-expressions agree. -/
def EvRel (L : Nat) (ev : Eval) (oev : OEval) : Prop :=
  ∀ ctx n e fr c s, LimGood L s → LimRel L s (ev (OCtx.forget ctx) e fr c) (oev ctx n e fr c s)

section
variable {L : Nat} {ev : Eval} {oev : OEval} (hev : EvRel L ev oev)
include hev

theorem limit_seq (ctx : OCtx) (n : NodeId) (start : Cursor) (es : List PExpr) : ∀ i acc fr c s, LimGood L s →
    LimRel L s (seqLoop ev ctx.forget start es acc fr c) (oSeqLoop oev ctx n start i es acc fr c s) := by
  induction es with
  | nil => exact fun i acc fr c s h => limRel_done h (by rfl) _
  | cons e es ih =>
    intro i acc fr c s h
    refine limRel_andThen (hev _ _ _ _ _ _ h) (fun r s' h' => ?_) (fun _ _ => rfl)
    cases r with
    | ok v c' fr' => exact ih _ _ _ _ _ h'
    | fail c' => exact limRel_done h' (by rfl) _
    | panic p c' => exact limRel_done h' (by rfl) _

theorem lim_choice (ctx : OCtx) (n : NodeId) (fr : VFrame) (es : List PExpr) : ∀ i c s, LimGood L s →
    LimRel L s (choiceLoop ev ctx.forget fr es c) (oChoiceLoop oev ctx n fr i es c s) := by
  induction es with
  | nil => exact fun i c s h => limRel_done h (by rfl) _
  | cons e es ih =>
    intro i c s h
    refine limRel_andThen (hev _ _ _ _ _ _ h) (fun r s' h' => ?_) (fun _ _ => rfl)
    cases r with
    | ok v c' fr' => exact limRel_done h' (by rfl) _
    | fail c' => exact ih _ _ _ h'
    | panic p c' => exact limRel_done h' (by rfl) _

theorem lim_rep (ctx : OCtx) (n : NodeId) (fr : VFrame) (e : PExpr) (one : Bool) (k : Nat) : ∀ acc c s,
    LimGood L s → LimRel L s (repLoop ev ctx.forget fr e one k acc c) (oRepLoop oev ctx n fr e one k acc c s) := by
  induction k with
  | zero => exact fun acc c s h => limRel_oof
  | succ k ih =>
    intro acc c s h
    refine limRel_andThen (hev _ _ _ _ _ _ h) (fun r s' h' => ?_) (fun _ _ => rfl)
    cases r with
    | ok v c' fr' => exact ih _ _ _ h'
    | fail c' =>
      have := limRel_done (L := L) h' (log := []) (by rfl)
        (if one ∧ acc = [] then .fail c' else .ok (.list acc) c' fr)
      refine cast ?_ this
      split <;> rfl
    | panic p c' => exact limRel_done h' (by rfl) _

theorem lim_throw (ctx : OCtx) (l : FailLabel) (fr : VFrame) (rs : List (FailLabel × NodeId × PExpr)) :
    ∀ c s, LimGood L s → LimRel L s (throwLoop ev ctx.forget l fr (rs.map fun x => (x.1, x.2.2)) c)
      (oThrowLoop oev ctx l fr rs c s) := by
  induction rs with
  | nil => exact fun c s h => limRel_done h (by rfl) _
  | cons x rs ih =>
    obtain ⟨l', n, e⟩ := x
    intro c s h
    rw [List.map_cons]
    unfold throwLoop oThrowLoop
    dsimp only
    split
    · refine limRel_andThen (hev _ _ _ _ _ _ h) (fun r s' h' => ?_) (fun _ _ => rfl)
      cases r with
      | ok v c' fr' => exact limRel_done h' (by rfl) _
      | fail c' => exact ih _ _ h'
      | panic p c' => exact limRel_done h' (by rfl) _
    · exact ih _ _ h

end

theorem lim_ofOut {L : Nat} {s : PState} (h : LimGood L s) {o : Out}
    (ht : ∀ log r, o = .done log r → ticks log = 0) : LimRel L s o (.ofOut s o) := by
  cases o with
  | oof => exact limRel_oof
  | done l r => exact limRel_done h (ht _ _ rfl) r

theorem ticks_actStep (a : Act) (c c' : Cursor) (fr : VFrame) {log : List Ev} {r : Res}
    (h : actStep E a c c' fr = .done log r) : ticks log = 0 := by
  unfold actStep at h
  split at h <;> cases h <;> rfl

theorem lim_memoized {o : Opts} (hm : o.memoize = false) {L : Nat} {k : MKey} {fr : VFrame} {c : Cursor}
    {s : PState} {p : Out} {body : PState → OOut} (h : LimRel L s p (body s)) :
    LimRel L s p (memoized o k fr c s body) := by
  have hb : memoized o k fr c s body = body s := by
    unfold memoized
    rw [hm]
    rw [if_neg (by simp)]
    dsimp only
    rcases body s with _ | ⟨l, r, s'⟩
    · rfl
    · simp [OOut.andThen, memoStore, hm]
  rw [hb]; exact h

theorem lim_step {o : Opts} (hm : o.memoize = false) {L : Nat} {k : Nat} {ev : Eval} {oev : OEval}
    (hev : EvRel L ev oev) (ctx : OCtx) (n : NodeId) (e : PExpr) (fr : VFrame) (c : Cursor) (s : PState)
    (h : LimGood L s) : LimRel L s (step E k ev ctx.forget e fr c) (oStep E o k oev ctx n e fr c s) := by
  cases e with
  | action a e =>
    refine limRel_andThen (hev _ _ _ _ _ _ h) (fun r s' h' => ?_) (fun _ _ => rfl)
    cases r with
    | ok v c' fr' => exact lim_ofOut h' fun log r => ticks_actStep a c c' fr'
    | fail c' => exact limRel_done h' (by rfl) _
    | panic p c' => exact limRel_done h' (by rfl) _
  | seq es => exact limit_seq hev _ _ _ _ _ _ _ _ _ h
  | choice es => exact lim_choice hev _ _ _ _ _ _ _ h
  | label l e =>
    refine limRel_andThen (hev _ _ _ _ _ _ h) (fun r s' h' => ?_) (fun _ _ => rfl)
    cases r <;> exact limRel_done h' (by rfl) _
  | rule r =>
    refine lim_memoized (body := fun s => (oev ctx (r, []) (grammar r) [] c s).andThen fun
      | .ok v c' _, s' => .done [] (.ok v c' fr) s'
      | r, s' => .done [] r s') hm (limRel_andThen (hev _ _ _ _ _ _ h) (fun r s' h' => ?_) (fun _ _ => rfl))
    cases r <;> exact limRel_done h' (by rfl) _
  | lit val ic want =>
    refine lim_ofOut (o := step E k (fun _ _ _ _ => .oof) ⟨ctx.inv, []⟩ (.lit val ic want) fr c) h
      fun log r hr => ?_
    unfold step at hr
    dsimp only at hr
    split at hr <;> rename_i hl <;> cases hr <;> rw [ticks_append, ticks_litLoop hl] <;> rfl
  | cls chars ranges ic inv want =>
    refine lim_ofOut (o := step E k (fun _ _ _ _ => .oof) ⟨ctx.inv, []⟩ (.cls chars ranges ic inv want) fr c) h
      fun log r hr => ?_
    unfold step at hr
    dsimp only at hr
    split at hr
    · cases hr; rfl
    · split at hr <;> cases hr
      · rw [ticks_append, ticks_encErr]; rfl
      · rfl
  | any =>
    refine lim_ofOut (o := step E k (fun _ _ _ _ => .oof) ⟨ctx.inv, []⟩ .any fr c) h fun log r hr => ?_
    unfold step at hr
    dsimp only at hr
    split at hr <;> cases hr
    · rfl
    · rw [ticks_append, ticks_encErr]; rfl
  | not e =>
    refine limRel_andThen (hev { ctx with inv := !ctx.inv } _ _ _ _ _ h) (fun r s' h' => ?_) (fun _ _ => rfl)
    cases r <;> exact limRel_done h' (by rfl) _
  | star e => exact lim_rep hev _ _ _ _ _ _ _ _ _ h
  | plus e => exact lim_rep hev _ _ _ _ _ _ _ _ _ h
  | opt e =>
    refine limRel_andThen (hev _ _ _ _ _ _ h) (fun r s' h' => ?_) (fun _ _ => rfl)
    cases r <;> exact limRel_done h' (by rfl) _
  | recover l e r => exact hev { ctx with recov := (l, n.child 1, r) :: ctx.recov } _ _ _ _ _ h
  | throw l => exact lim_throw hev ctx l fr ctx.recov c s h
  | state st => exact limRel_done (log := [.err c.loc (runState st)]) h rfl (.ok .nil c fr)

theorem lim_tick {o : Opts} {c : Cursor} {s : PState} {p : Out} {k : PState → OOut}
    (hL : o.limit ≤ maxUint64) (h : LimGood o.limit s)
    (hk : ∀ s', LimGood o.limit s' → LimRel o.limit s' p (k s')) :
    LimRel o.limit s ((Out.done [.tick] (.fail c)).andThen fun _ => p) (oTick o c s k) := by
  intro log r he
  rcases p with _ | ⟨l, r'⟩
  · cases he
  · cases he
    unfold oTick
    dsimp only
    have hM : maxUint64 = 18446744073709551615 := by decide
    by_cases hu : o.limit = maxUint64
    · rw [if_neg (by omega)]
      obtain ⟨s2, ⟨h2, hg⟩ | ⟨h2, -⟩⟩ := hk ⟨(s.cnt + 1) % 2 ^ 64, s.memo⟩ (.inl hu) l r rfl
      · exact ⟨s2, .inl ⟨by unfold OOut.andThen; dsimp only; rw [h2], .inl hu⟩⟩
      · exact absurd hu h2
    · have hc : s.cnt ≤ o.limit := h.resolve_left hu
      rw [Nat.mod_eq_of_lt (by omega)]
      split
      · exact ⟨_, .inr ⟨hu, [], l, c, rfl, by rw [show ticks [] = 0 from rfl]; omega, rfl⟩⟩
      · rename_i hlt
        obtain ⟨s2, ⟨h2, hg⟩ | ⟨h2, pre, suf, c', hl, ht, h3⟩⟩ :=
          hk ⟨s.cnt + 1, s.memo⟩ (.inr (by dsimp only; omega)) l r rfl
        · refine ⟨s2, .inl ⟨by simp [OOut.andThen, h2], .inr ?_⟩⟩
          have := hg.resolve_left hu
          dsimp only at this
          rw [List.singleton_append, ticks_cons]
          omega
        · refine ⟨s2, .inr ⟨hu, .tick :: pre, suf, c', by rw [hl]; rfl, ?_, by simp [OOut.andThen, h3]⟩⟩
          dsimp only at ht
          rw [ticks_cons]; omega

theorem lim_run {o : Opts} (hm : o.memoize = false) (hL : o.limit ≤ maxUint64) :
    ∀ f, EvRel o.limit (run E f) (oRun E o f)
  | 0 => fun _ _ _ _ _ _ _ => limRel_oof
  | f + 1 => fun ctx n e fr c _ h =>
    lim_memoized hm (lim_tick hL h fun s' h' => lim_step hm (lim_run hm hL f) ctx n e fr c s' h')

theorem limit_le {o : Opts} (h : o.maxExprs ≤ maxUint64) : o.limit ≤ maxUint64 := by
  unfold Opts.limit
  split
  · exact Nat.le_refl _
  · exact h

/-- The result without its labels. -/
def Res.bare : Res → Res
  | .ok v c _ => .ok v c []
  | r => r

theorem oFinish_bare (log : List Ev) (r : Res) : oFinish log (.ofRes r.bare) = .out (finish log r) := by
  cases r <;> simp only [Res.bare, ORes.ofRes, oFinish, finish]
  rcases errorsOf log with _ | ⟨x, xs⟩ <;> rfl

theorem lim_start {o : Opts} (hm : o.memoize = false) (h : o.maxExprs ≤ maxUint64) (input : List Sym)
    {log : List Ev} {r : Res} (hr : runStart E input = .done log r) :
    ∃ s', (oRunStart E o input = .done log (.ofRes r.bare) s' ∧
      (o.limit = maxUint64 ∨ (s'.cnt = ticks log ∧ ticks log ≤ o.limit))) ∨
    (o.limit ≠ maxUint64 ∧ ∃ pre suf c, log = pre ++ .tick :: suf ∧ ticks pre = o.limit ∧
      oRunStart E o input = .done pre (.panic none c) s') := by
  have hg : LimGood o.limit ⟨0, []⟩ := .inr (Nat.zero_le _)
  have hrel : LimRel o.limit ⟨0, []⟩
      ((run E (depthBound input.length) ⟨false, []⟩ (grammar .Start) [] (.init input)).andThen fun r =>
        .done [] r.bare)
      (oParseRule o (oRun E o (depthBound input.length)) ⟨false, []⟩ .Start [] (.init input) ⟨0, []⟩) := by
    refine lim_memoized (body := fun s => (oRun E o (depthBound input.length) ⟨false, []⟩ (.Start, [])
      (grammar .Start) [] (.init input) s).andThen fun
      | .ok v c' _, s' => .done [] (.ok v c' []) s'
      | r, s' => .done [] r s') hm
      (limRel_andThen (lim_run hm (limit_le h) _ ⟨false, []⟩ _ _ _ _ _ hg) (fun r s' h' => ?_) (fun _ _ => rfl))
    cases r <;> exact limRel_done h' (by rfl) _
  unfold runStart Out.andThen at hr
  dsimp only at hr
  rcases hrun : run E (depthBound input.length) ⟨false, []⟩ (grammar .Start) [] (.init input) with _ | ⟨l, r0⟩
  · rw [hrun] at hr; cases hr
  · rw [hrun] at hr
    cases hr
    rw [hrun] at hrel
    obtain ⟨s', ⟨h1, h2⟩ | ⟨hL, pre, suf, c, hl, ht, h1⟩⟩ := hrel l r.bare (by simp [Out.andThen])
    · refine ⟨s', .inl ⟨?_, ?_⟩⟩
      · unfold oRunStart OOut.andThen
        dsimp only
        rw [h1]
      · rcases h2 with h2 | h2
        · exact .inl h2
        · refine .inr ?_
          dsimp only at h2
          rw [ticks_append, ticks_encErr]
          omega
    · refine ⟨s', .inr ⟨hL, encErr (.init input) ++ pre, suf, c, by rw [hl]; simp, ?_, ?_⟩⟩
      · dsimp only at ht
        rw [ticks_append, ticks_encErr]
        omega
      · unfold oRunStart OOut.andThen
        dsimp only
        rw [h1]

end Aql
