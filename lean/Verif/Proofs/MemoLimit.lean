import Verif.Proofs.MemoWhole
import Verif.Proofs.Complete
/-!
The run with a maximum, compared with the run with the same table and without a maximum.
-/

namespace Aql

variable {E : Env} {o : Opts}

/-- The outcomes agree, or the first run stopped at the maximum and the second one went on. -/
def PreRel (a b : OOut) : Prop :=
  a = b ∨ ∃ l c s, a = .done l (.panic none c) s ∧ (b = .oof ∨ ∃ suf r s', b = .done (l ++ .tick :: suf) r s')

theorem preRel_andThen {a b : OOut} {k k0 : ORes → PState → OOut} (h : PreRel a b) (hk : ∀ r s, PreRel (k r s) (k0 r s))
    (hp : ∀ c s, k (.panic none c) s = .done [] (.panic none c) s) : PreRel (a.andThen k) (b.andThen k0) := by
  rcases h with rfl | ⟨l, c, s, rfl, h⟩
  · cases a with
    | oof => exact .inl rfl
    | done l r s =>
      unfold OOut.andThen
      dsimp only
      rcases hk r s with h | ⟨l2, c, s2, h1, h2 | ⟨suf, r3, s3, h2⟩⟩
      · rw [h]; exact .inl rfl
      · rw [h1, h2]; exact .inr ⟨_, _, _, rfl, .inl rfl⟩
      · rw [h1, h2]; exact .inr ⟨_, _, _, rfl, .inr ⟨suf, _, _, by rw [List.append_assoc]⟩⟩
  · unfold OOut.andThen
    dsimp only
    rw [hp]
    refine .inr ⟨_, _, _, rfl, ?_⟩
    rcases h with rfl | ⟨suf, r, s', rfl⟩
    · exact .inl rfl
    · dsimp only
      cases k0 r s' with
      | oof => exact .inl rfl
      | done l2 r2 s2 => exact .inr ⟨suf ++ l2, r2, s2, by simp⟩

/-- The evaluations of sub-expressions are so related. -/
def PreEv (ev ev0 : OEval) : Prop := ∀ ctx n e fr c s, PreRel (ev ctx n e fr c s) (ev0 ctx n e fr c s)

section
variable {ev ev0 : OEval} (hev : PreEv ev ev0)
include hev

theorem pre_seq (ctx : OCtx) (n : NodeId) (st : Cursor) (es : List PExpr) : ∀ i acc fr c s,
    PreRel (oSeqLoop ev ctx n st i es acc fr c s) (oSeqLoop ev0 ctx n st i es acc fr c s) := by
  induction es with
  | nil => intro i acc fr c s; exact .inl rfl
  | cons e es ih =>
    intro i acc fr c s
    refine preRel_andThen (hev _ _ _ _ _ _) (fun r s => ?_) (fun _ _ => rfl)
    cases r with
    | ok => exact ih _ _ _ _ _
    | fail => exact .inl rfl
    | panic => exact .inl rfl

theorem pre_choice (ctx : OCtx) (n : NodeId) (fr : VFrame) (es : List PExpr) : ∀ i c s,
    PreRel (oChoiceLoop ev ctx n fr i es c s) (oChoiceLoop ev0 ctx n fr i es c s) := by
  induction es with
  | nil => intro i c s; exact .inl rfl
  | cons e es ih =>
    intro i c s
    refine preRel_andThen (hev _ _ _ _ _ _) (fun r s => ?_) (fun _ _ => rfl)
    cases r with
    | ok => exact .inl rfl
    | fail => exact ih _ _ _
    | panic => exact .inl rfl

theorem pre_rep (ctx : OCtx) (n : NodeId) (fr : VFrame) (e : PExpr) (one : Bool) (k : Nat) : ∀ acc c s,
    PreRel (oRepLoop ev ctx n fr e one k acc c s) (oRepLoop ev0 ctx n fr e one k acc c s) := by
  induction k with
  | zero => intro acc c s; exact .inl rfl
  | succ k ih =>
    intro acc c s
    refine preRel_andThen (hev _ _ _ _ _ _) (fun r s => ?_) (fun _ _ => rfl)
    cases r with
    | ok => exact ih _ _ _
    | fail => exact .inl rfl
    | panic => exact .inl rfl

theorem pre_throw (ctx : OCtx) (x : FailLabel) (fr : VFrame) (rs : List (FailLabel × NodeId × PExpr)) : ∀ c s,
    PreRel (oThrowLoop ev ctx x fr rs c s) (oThrowLoop ev0 ctx x fr rs c s) := by
  induction rs with
  | nil => intro c s; exact .inl rfl
  | cons e rs ih =>
    intro c s
    obtain ⟨l', n, e⟩ := e
    unfold oThrowLoop
    split
    · refine preRel_andThen (hev _ _ _ _ _ _) (fun r s => ?_) (fun _ _ => rfl)
      cases r with
      | ok => exact .inl rfl
      | fail => exact ih _ _
      | panic => exact .inl rfl
    · exact ih _ _

omit hev in
theorem pre_memoized {k : MKey} {fr : VFrame} {c : Cursor} {s : PState} {b b0 : PState → OOut} (h : ∀ s, PreRel (b s) (b0 s)) :
    PreRel (memoized o k fr c s b) (memoized ⟨0, o.memoize⟩ k fr c s b0) := by
  unfold memoized
  dsimp only
  cases (if o.memoize = true then getMemoized c k s else none) with
  | some m => exact .inl rfl
  | none =>
    refine preRel_andThen (h _) (fun r s => .inl rfl) (fun c' s' => ?_)
    unfold memoStore
    split <;> rfl

theorem pre_rule (ctx : OCtx) (q : Rule) (fr : VFrame) (c : Cursor) (s : PState) :
    PreRel (oParseRule o ev ctx q fr c s) (oParseRule ⟨0, o.memoize⟩ ev0 ctx q fr c s) := by
  unfold oParseRule
  refine pre_memoized fun s => ?_
  exact preRel_andThen (hev _ _ _ _ _ _) (fun r s => .inl rfl) (fun _ _ => rfl)

theorem pre_step (k : Nat) (ctx : OCtx) (n : NodeId) (e : PExpr) (fr : VFrame) (c : Cursor) (s : PState) :
    PreRel (oStep E o k ev ctx n e fr c s) (oStep E ⟨0, o.memoize⟩ k ev0 ctx n e fr c s) := by
  unfold oStep
  split
  · exact preRel_andThen (hev _ _ _ _ _ _) (fun r s => .inl rfl) (fun _ _ => rfl)
  · exact pre_seq hev _ _ _ _ _ _ _ _ _
  · exact pre_choice hev _ _ _ _ _ _ _
  · exact preRel_andThen (hev _ _ _ _ _ _) (fun r s => .inl rfl) (fun _ _ => rfl)
  · exact pre_rule hev _ _ _ _ _
  · exact preRel_andThen (hev _ _ _ _ _ _) (fun r s => .inl rfl) (fun _ _ => rfl)
  · exact pre_rep hev _ _ _ _ _ _ _ _ _
  · exact pre_rep hev _ _ _ _ _ _ _ _ _
  · exact preRel_andThen (hev _ _ _ _ _ _) (fun r s => .inl rfl) (fun _ _ => rfl)
  · exact hev _ _ _ _ _ _
  · exact pre_throw hev _ _ _ _ _ _
  · exact .inl rfl

end

theorem pre_tick {c : Cursor} {s : PState} {b b0 : PState → OOut} (h : ∀ s, PreRel (b s) (b0 s)) :
    PreRel (oTick o c s b) (oTick ⟨0, o.memoize⟩ c s b0) := by
  have h0 : ¬ (⟨0, o.memoize⟩ : Opts).limit < (s.cnt + 1) % 2 ^ 64 := by
    unfold Opts.limit maxUint64
    simp only [if_true]
    omega
  unfold oTick
  dsimp only
  rw [if_neg h0]
  split
  · refine .inr ⟨_, _, _, rfl, ?_⟩
    unfold OOut.andThen
    dsimp only
    cases b0 ⟨(s.cnt + 1) % 2 ^ 64, s.memo⟩ with
    | oof => exact .inl rfl
    | done l r s' => exact .inr ⟨_, _, _, rfl⟩
  · unfold OOut.andThen
    dsimp only
    rcases h ⟨(s.cnt + 1) % 2 ^ 64, s.memo⟩ with h | ⟨l2, c, s2, h1, h2 | ⟨suf, r3, s3, h2⟩⟩
    · rw [h]; exact .inl rfl
    · rw [h1, h2]; exact .inr ⟨_, _, _, rfl, .inl rfl⟩
    · rw [h1, h2]; exact .inr ⟨_, _, _, rfl, .inr ⟨suf, _, _, rfl⟩⟩

theorem pre_run (f : Nat) : PreEv (oRun E o f) (oRun E ⟨0, o.memoize⟩ f) := by
  induction f with
  | zero => intro _ _ _ _ _ _; exact .inl rfl
  | succ f ih =>
    intro ctx n e fr c s
    unfold oRun
    exact pre_memoized fun s => pre_tick fun s => pre_step ih _ _ _ _ _ _ _

theorem pre_start (input : List Sym) : PreRel (oRunStart E o input) (oRunStart E ⟨0, o.memoize⟩ input) := by
  unfold oRunStart OOut.andThen
  dsimp only
  rcases pre_rule (o := o) (pre_run (E := E) (o := o) (depthBound input.length)) ⟨false, []⟩ .Start [] (.init input) ⟨0, []⟩ with
    h | ⟨l2, c, s2, h1, h2 | ⟨suf, r3, s3, h2⟩⟩
  · rw [h]; exact .inl rfl
  · rw [h1, h2]; exact .inr ⟨_, _, _, rfl, .inl rfl⟩
  · rw [h1, h2]; exact .inr ⟨_, _, _, rfl, .inr ⟨suf, _, _, by rw [List.append_assoc]⟩⟩

/-- With any options, the outcome is that without or the maximum is reached. -/
theorem opts_same (o : Opts) (input : List Sym) (h0 : oParse E ⟨0, o.memoize⟩ input = (parse E input).map .out) :
    oParse E o input = (parse E input).map .out ∨ ∃ at_, oParse E o input = some (.maxExprs at_) := by
  obtain ⟨l, r, -, -, hp⟩ := parse_big (E := E) input
  rcases pre_start (E := E) (o := o) input with h | ⟨l, c, s, h1, h2 | ⟨suf, r3, s3, h2⟩⟩
  · left
    rw [← h0]
    unfold oParse
    rw [h]
  · unfold oParse at h0
    rw [h2, hp] at h0
    cases h0
  · cases he : errorsOf l with
    | nil =>
      right
      refine ⟨c.loc, ?_⟩
      unfold oParse
      rw [h1]
      simp only [oFinish, he]
    | cons x xs =>
      left
      rw [← h0]
      unfold oParse
      rw [h1, h2]
      have he' : errorsOf (l ++ .tick :: suf) = x :: (xs ++ errorsOf (.tick :: suf)) := by rw [errorsOf_append, he]; rfl
      cases r3 with
      | ok => simp only [oFinish, finish, he, he']
      | fail => simp only [oFinish, finish, he, he']
      | panic p => cases p <;> simp only [oFinish, finish, he, he']

/-- A value, or a list of what was expected: no error was recorded. -/
theorem clean_run {input : List Sym} {p : ParseOut} (h : parse E input = some p)
    (hp : (∃ v, p = .value v) ∨ ∃ q ws k, p = .error q ⟨.noMatch ws, k⟩) :
    ∃ log r, runStart E input = .done log r ∧ errorsOf log = [] := by
  obtain ⟨l, r, hb, hd, hq⟩ := parse_big (E := E) input
  refine ⟨_, r, hd, ?_⟩
  rw [h] at hq
  simp only [Option.some.injEq] at hq
  cases he : errorsOf (encErr (.init input) ++ l) with
  | nil => rfl
  | cons x xs =>
    exfalso
    unfold finish at hq
    rw [he] at hq
    dsimp only at hq
    rcases hp with ⟨v, rfl⟩ | ⟨q, ws, k, rfl⟩
    · cases hq
    · simp only [ParseOut.error.injEq] at hq
      have hm : (q, (⟨.noMatch ws, k⟩ : RecErr)) ∈ errorsOf (encErr (.init input) ++ l) := by
        rw [he, hq.1, hq.2]
        exact List.mem_cons_self
      rcases List.mem_append.1 (mem_errorsOf.1 hm) with hm | hm
      · unfold encErr at hm
        split at hm <;> simp at hm
      · obtain ⟨_, _, _, _, -, -, -, -, -, -, hn⟩ := hb.spans (reads_grammar _) rfl _ hm
        exact hn ws rfl

end Aql
