import Verif.Model.Messages
import Verif.Proofs.Validate
/-! Walks seen without the message tapes, and what the tapes receive. -/

namespace Aql

open Spec

variable (E : Env)

/-- Forget the tapes of a result. -/
def projUser {σ α : Type} : GoM (VState σ × α) → GoM (σ × α)
  | .error p => .error p
  | .ok (s, a) => .ok (s.user, a)

/-- A visitor without its tape. -/
def Visitor.plain {σ : Type} : Visitor σ → σ → Node → GoM (σ × Option VErr)
  | .func f => f
  | .message _ f => fun u n =>
    match f u n with
    | .error p => .error p
    | .ok (u, _, r) => .ok (u, r)

theorem Visitor.visit_proj {σ : Type} (v : Visitor σ) (s : VState σ) (n : Node) :
    projUser (v.visit s n) = v.plain s.user n := by
  cases v with
  | func f =>
    simp only [Visitor.visit, Visitor.plain]
    rcases f s.user n with p | ⟨u, r⟩ <;> rfl
  | message id f =>
    simp only [Visitor.visit, Visitor.plain]
    rcases f s.user n with p | ⟨u, ms, r⟩ <;> rfl

theorem runList_proj {σ : Type} (v : Visitor σ) (xs : List (Node × Nat)) :
    ∀ (k : Nat) (s : VState σ), projUser (runList v.visit k s xs) = runList v.plain k s.user xs := by
  induction xs with
  | nil => intro k s; cases k <;> rfl
  | cons x xs ih =>
    obtain ⟨n, below⟩ := x
    intro k s
    cases k with
    | succ k => exact ih k s
    | zero =>
      have hv := v.visit_proj s n
      rw [runList, runList, ← hv]
      rcases v.visit s n with p | ⟨s', _ | e⟩
      · rfl
      · exact ih 0 s'
      · cases e with
        | skip => exact ih below s'
        | _ => rfl

theorem walk_proj {σ : Type} (v : Visitor σ) (s : VState σ) (n : Node) :
    projUser (walk v s n) = runList v.plain 0 s.user (preorder n) := by
  rw [walk_runList, runList_proj]

/-- An invariant of states preserved by every visit is preserved by a walk. -/
theorem runList_inv {σ : Type} (visit : σ → Node → GoM (σ × Option VErr)) (I : σ → Prop)
    (h : ∀ s n s' r, I s → visit s n = .ok (s', r) → I s') (xs : List (Node × Nat)) :
    ∀ (k : Nat) (s s' : σ) (r : Option VErr), I s → runList visit k s xs = .ok (s', r) → I s' := by
  induction xs with
  | nil => intro k s s' r hs he; cases k <;> cases he <;> exact hs
  | cons x xs ih =>
    obtain ⟨n, below⟩ := x
    intro k s s' r hs he
    cases k with
    | succ k => exact ih k s s' r hs he
    | zero =>
      rw [runList] at he
      rcases hv : visit s n with p | ⟨s1, _ | e⟩
      · rw [hv] at he; cases he
      · rw [hv] at he; exact ih 0 s1 s' r (h _ _ _ _ hs hv) he
      · rw [hv] at he
        cases e with
        | skip => exact ih below s1 s' r (h _ _ _ _ hs hv) he
        | _ => cases he; exact h _ _ _ _ hs hv

theorem Tape.addMsgs_firstErr (t : Tape) (ms : List Msg) (h : t.firstErr = none) :
    (t.addMsgs ms).firstErr = none := by
  induction ms generalizing t with
  | nil => exact h
  | cons m ms ih => exact ih _ (by simp [Tape.addMsg, h])

theorem Tape.addMsgs_messages (t : Tape) (ms : List Msg) :
    (t.addMsgs ms).messages = t.messages ++ ms := by
  induction ms generalizing t with
  | nil => simp [Tape.addMsgs]
  | cons m ms ih =>
    have := ih (t.addMsg m)
    simp only [Tape.addMsgs, List.foldl_cons] at this ⊢
    rw [this]; simp [Tape.addMsg]

/-- No tape holds a first error. -/
def Clean {σ : Type} (s : VState σ) : Prop := ∀ i, (s.tapes i).firstErr = none

theorem Visitor.visit_clean {σ : Type} (v : Visitor σ) (s : VState σ) (n : Node) (s' : VState σ)
    (r : Option VErr) (hs : Clean s) (h : v.visit s n = .ok (s', r)) : Clean s' := by
  cases v with
  | func f =>
    simp only [Visitor.visit] at h
    rcases hf : f s.user n with p | ⟨u, r⟩
    · rw [hf] at h; cases h
    · rw [hf] at h; cases h; exact hs
  | message id f =>
    simp only [Visitor.visit] at h
    rcases hf : f s.user n with p | ⟨u, ms, r⟩
    · rw [hf] at h; cases h
    · rw [hf] at h; cases h
      intro i
      dsimp only
      split
      · exact Tape.addMsgs_firstErr _ _ (hs i)
      · exact hs i

theorem walk_clean {σ : Type} (v : Visitor σ) (s s' : VState σ) (n : Node) (r : Option VErr)
    (hs : Clean s) (h : walk v s n = .ok (s', r)) : Clean s' := by
  rw [walk_runList] at h
  exact runList_inv v.visit Clean (fun s n s' r a b => v.visit_clean s n s' r a b) _ _ _ _ _ hs h

/-- Walks one after the other until one returns an error; no tapes. -/
def runPlain {σ : Type} (vs : List (σ → Node → GoM (σ × Option VErr))) (u : σ) (root : Node) :
    GoM (σ × Option VErr) :=
  match vs with
  | [] => .ok (u, none)
  | v :: vs =>
    match runList v 0 u (preorder root) with
    | .error p => .error p
    | .ok (u, some e) => .ok (u, some e)
    | .ok (u, none) => runPlain vs u root

/-- A walk error as ParseQuery reports it. -/
def toPErrOut {σ : Type} : GoM (σ × Option VErr) → GoM (σ × Option PErr)
  | .error p => .error p
  | .ok (u, r) => .ok (u, r.map VErr.toPErr)

theorem runVisitors_plain {σ : Type} (vs : List (Visitor σ)) (s : VState σ) (root : Node)
    (hs : Clean s) : projUser (runVisitors vs s root) =
      toPErrOut (runPlain (vs.map Visitor.plain) s.user root) := by
  induction vs generalizing s with
  | nil => rfl
  | cons v vs ih =>
    rw [runVisitors, List.map_cons, runPlain, ← walk_proj]
    rcases hw : walk v s root with p | ⟨s', _ | e⟩
    · rfl
    · have hc := walk_clean v s s' root none hs hw
      have ht : v.tapeErr s' = none := by
        cases v with
        | func f => rfl
        | message id f => simp [Visitor.tapeErr, hc id]
      simp only [ht, projUser]
      exact ih s' hc
    · rfl

theorem runVisitors_clean {σ : Type} (vs : List (Visitor σ)) (s s' : VState σ) (root : Node)
    (r : Option PErr) (hs : Clean s) (h : runVisitors vs s root = .ok (s', r)) : Clean s' := by
  induction vs generalizing s with
  | nil => cases h; exact hs
  | cons v vs ih =>
    rw [runVisitors] at h
    rcases hw : walk v s root with p | ⟨s1, _ | e⟩
    · rw [hw] at h; cases h
    · rw [hw] at h
      have hc := walk_clean v s s1 root none hs hw
      dsimp only at h
      split at h
      · cases h; exact hc
      · exact ih s1 hc h
    · rw [hw] at h; cases h
      exact walk_clean v s _ root _ hs hw

/-! ### the validator's walk -/

/-- What the validator says about one node (it never panics). -/
noncomputable def verdict (n : Node) : Option PErr :=
  match n with
  | .expr op _ vs pos => (validateExpr_spec E op vs pos).choose
  | _ => none

theorem opValidator_verdict (n : Node) : opValidator E n = .ok (verdict E n) := by
  cases n with
  | expr op f vs pos => exact (validateExpr_spec E op vs pos).choose_spec.1
  | _ => rfl

theorem verdict_none (op : Op) (f : List Str) (vs : List Val) (pos : Pos) :
    verdict E (.expr op f vs pos) = none ↔ ExprOk E op vs :=
  (validateExpr_spec E op vs pos).choose_spec.2

theorem validator_plain (σ : Type) (u : σ) (n : Node) :
    (validatorVisitor E σ).plain u n = .ok (u, (verdict E n).map VErr.parse) := by
  simp only [validatorVisitor, Visitor.plain, opValidator_verdict]

theorem validator_runList (σ : Type) (u : σ) (xs : List (Node × Nat)) :
    runList (validatorVisitor E σ).plain 0 u xs =
      .ok (u, ((xs.map Prod.fst).findSome? (verdict E)).map VErr.parse) := by
  induction xs with
  | nil => rfl
  | cons x xs ih =>
    obtain ⟨n, below⟩ := x
    rw [runList, validator_plain]
    simp only [List.map_cons, List.findSome?_cons]
    cases verdict E n with
    | none => exact ih
    | some e => rfl

theorem preorder_findSome (n : Node) :
    ((preorder n).map Prod.fst).findSome? (verdict E) = (comparisons n).findSome? (verdict E) := by
  induction n with
  | and l r ihl ihr =>
    simp only [preorder, comparisons, List.map_cons, List.map_append, List.findSome?_cons,
      List.findSome?_append, ihl, ihr]
    rfl
  | or l r ihl ihr =>
    simp only [preorder, comparisons, List.map_cons, List.map_append, List.findSome?_cons,
      List.findSome?_append, ihl, ihr]
    rfl
  | not e ih =>
    simp only [preorder, comparisons, List.map_cons, List.findSome?_cons, ih]; rfl
  | subdoc f e ih =>
    simp only [preorder, comparisons, List.map_cons, List.findSome?_cons, ih]; rfl
  | expr op f vs pos => rfl

/-- The validator's walk returns the verdict on the first failing comparison. -/
theorem validator_walk {σ : Type} (s : VState σ) (n : Node) :
    walk (validatorVisitor E σ) s n =
      .ok (s, ((comparisons n).findSome? (verdict E)).map VErr.parse) := by
  have hp := walk_proj (validatorVisitor E σ) s n
  rw [validator_runList, preorder_findSome] at hp
  have hs : ∀ s' r, walk (validatorVisitor E σ) s n = .ok (s', r) → s' = s := by
    intro s' r h
    rw [walk_runList] at h
    refine runList_inv _ (fun x => x = s) ?_ _ _ _ _ _ rfl h
    rintro a m b r rfl h
    simp only [validatorVisitor, Visitor.visit, opValidator_verdict] at h
    cases h; rfl
  rcases hw : walk (validatorVisitor E σ) s n with p | ⟨s', r⟩
  · rw [hw] at hp; cases hp
  · have := hs s' r hw
    subst this
    rw [hw] at hp
    simp only [projUser, Except.ok.injEq, Prod.mk.injEq] at hp
    rw [hp.2]

theorem allOk_iff (n : Node) : AllOk E n ↔ ∀ c ∈ comparisons n, AllOk E c := by
  induction n with
  | and l r ihl ihr =>
    simp only [AllOk, comparisons, List.mem_append, ihl, ihr]
    constructor
    · rintro ⟨h1, h2⟩ c (h | h)
      · exact h1 c h
      · exact h2 c h
    · intro h; exact ⟨fun c hc => h c (.inl hc), fun c hc => h c (.inr hc)⟩
  | or l r ihl ihr =>
    simp only [AllOk, comparisons, List.mem_append, ihl, ihr]
    constructor
    · rintro ⟨h1, h2⟩ c (h | h)
      · exact h1 c h
      · exact h2 c h
    · intro h; exact ⟨fun c hc => h c (.inl hc), fun c hc => h c (.inr hc)⟩
  | not e ih => simpa only [AllOk, comparisons] using ih
  | subdoc f e ih => simpa only [AllOk, comparisons] using ih
  | expr op f vs pos => simp [AllOk, comparisons]

theorem comparisons_expr (n : Node) : ∀ c ∈ comparisons n, ∃ op f vs pos, c = .expr op f vs pos := by
  induction n with
  | and l r ihl ihr =>
    intro c hc
    rcases List.mem_append.1 hc with h | h
    · exact ihl c h
    · exact ihr c h
  | or l r ihl ihr =>
    intro c hc
    rcases List.mem_append.1 hc with h | h
    · exact ihl c h
    · exact ihr c h
  | not e ih => exact ih
  | subdoc f e ih => exact ih
  | expr op f vs pos =>
    intro c hc
    simp only [comparisons, List.mem_singleton] at hc
    exact ⟨_, _, _, _, hc⟩

theorem verdict_none_iff {n c : Node} (hc : c ∈ comparisons n) : verdict E c = none ↔ AllOk E c := by
  obtain ⟨op, f, vs, pos, rfl⟩ := comparisons_expr n c hc
  exact verdict_none E op f vs pos

theorem verdicts_none (n : Node) : (comparisons n).findSome? (verdict E) = none ↔ AllOk E n := by
  rw [List.findSome?_eq_none_iff, allOk_iff]
  constructor
  · intro h c hc; exact (verdict_none_iff E hc).1 (h c hc)
  · intro h c hc; exact (verdict_none_iff E hc).2 (h c hc)

/-- The parse after the grammar: validator first, then the other visitors. -/
theorem finishParse_eq {σ : Type} (vs : List (Visitor σ)) (s : VState σ) (root : Node) :
    finishParse E vs s (.ok root) =
      match (comparisons root).findSome? (verdict E) with
      | some e => .ok (s, .error e)
      | none =>
        match runVisitors vs s root with
        | .error p => .error p
        | .ok (s, some e) => .ok (s, .error e)
        | .ok (s, none) => .ok (s, .ok root) := by
  unfold finishParse
  simp only [runVisitors, validator_walk]
  cases h : (comparisons root).findSome? (verdict E) with
  | some e => rfl
  | none => rfl

theorem finishParse_rejected {σ : Type} (vs : List (Visitor σ)) (s : VState σ) (root : Node)
    (h : ¬ AllOk E root) : ∃ e, finishParse E vs s (.ok root) = .ok (s, .error e) ∧
      ∃ pre c post, comparisons root = pre ++ c :: post ∧ (∀ m ∈ pre, AllOk E m) ∧ ¬ AllOk E c ∧
        opValidator E c = .ok (some e) := by
  rw [finishParse_eq]
  cases hf : (comparisons root).findSome? (verdict E) with
  | none => exact absurd ((verdicts_none E root).1 hf) h
  | some e =>
    refine ⟨e, rfl, ?_⟩
    obtain ⟨pre, c, post, he, hc, hp⟩ := List.findSome?_eq_some_iff.1 hf
    refine ⟨pre, c, post, he, ?_, ?_, by rw [opValidator_verdict, hc]⟩
    · intro m hm
      exact (verdict_none_iff (n := root) E (by rw [he]; simp [hm])).1 (hp m hm)
    · intro hok
      rw [(verdict_none_iff (n := root) E (by rw [he]; simp)).2 hok] at hc
      cases hc

theorem finishParse_accepted {σ : Type} (vs : List (Visitor σ)) (s : VState σ) (root : Node)
    (h : AllOk E root) : finishParse E vs s (.ok root) =
        match runVisitors vs s root with
        | .error p => .error p
        | .ok (s, some e) => .ok (s, .error e)
        | .ok (s, none) => .ok (s, .ok root) := by
  rw [finishParse_eq, (verdicts_none E root).2 h]

/-! ### what the tapes receive -/

/-- A message visitor's function, logging its messages in the state. -/
def logged {σ : Type} (f : σ → Node → GoM (σ × List Msg × Option VErr)) (s : σ × List Msg)
    (n : Node) : GoM ((σ × List Msg) × Option VErr) :=
  match f s.1 n with
  | .error p => .error p
  | .ok (u, ms, r) => .ok ((u, s.2 ++ ms), r)

theorem runList_logged {σ : Type} (id : Nat) (f : σ → Node → GoM (σ × List Msg × Option VErr))
    (xs : List (Node × Nat)) : ∀ (k : Nat) (s s' : VState σ) (r : Option VErr) (log : List Msg),
    runList (Visitor.message id f).visit k s xs = .ok (s', r) →
    ∃ out, runList (logged f) k (s.user, log) xs = .ok ((s'.user, log ++ out), r) ∧
      (∀ i, (s'.tapes i).messages = (s.tapes i).messages ++ (if i = id then out else [])) := by
  induction xs with
  | nil => intro k s s' r log h; cases k <;> cases h <;> exact ⟨[], by simp [runList], by simp⟩
  | cons x xs ih =>
    obtain ⟨n, below⟩ := x
    intro k s s' r log h
    cases k with
    | succ k => exact ih k s s' r log h
    | zero =>
      rw [runList] at h ⊢
      simp only [Visitor.visit, logged] at h ⊢
      have step : ∀ (u : σ) (ms : List Msg) (k : Nat) (s' : VState σ) (r : Option VErr),
          runList (Visitor.message id f).visit k
            ⟨u, fun i => if i = id then (s.tapes i).addMsgs ms else s.tapes i⟩ xs
            = .ok (s', r) →
          ∃ out, runList (logged f) k (u, log ++ ms) xs = .ok ((s'.user, log ++ out), r) ∧
            (∀ i, (s'.tapes i).messages =
              (s.tapes i).messages ++ (if i = id then out else [])) := by
        intro u ms k s' r h
        obtain ⟨out, h1, h2⟩ := ih k _ s' r (log ++ ms) h
        refine ⟨ms ++ out, by rw [h1, List.append_assoc], fun i => ?_⟩
        rw [h2 i]
        dsimp only
        split
        · rw [Tape.addMsgs_messages, List.append_assoc]
        · rfl
      rcases hf : f s.user n with p | ⟨u, ms, _ | e⟩
      · rw [hf] at h; cases h
      · rw [hf] at h; exact step u ms 0 s' r h
      · rw [hf] at h
        cases e with
        | skip => exact step u ms below s' r h
        | _ =>
          cases h
          refine ⟨ms, rfl, fun i => ?_⟩
          dsimp only
          split
          · rw [Tape.addMsgs_messages]
          · simp

end Aql
