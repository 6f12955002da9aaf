import Verif.Model.Wasm
import Verif.Proofs.Compile
import Verif.Proofs.Shapes
/-!
`parseAQL` in closed form and the positions of its messages.
-/

namespace Aql

open Spec

variable (E : Env)

/-- Messages of the nodes from left to right, up to the first error. -/
def runMsgs (fn : Node → List Msg × Option VErr) : List Node → List Msg × Option VErr
  | [] => ([], none)
  | n :: ns =>
    match fn n with
    | (ms, some e) => (ms, some e)
    | (ms, none) => (ms ++ (runMsgs fn ns).1, (runMsgs fn ns).2)

variable {fn : Node → List Msg × Option VErr}

theorem runMsgs_append (xs ys : List Node) : runMsgs fn (xs ++ ys) =
    match runMsgs fn xs with
    | (ms, some e) => (ms, some e)
    | (ms, none) => (ms ++ (runMsgs fn ys).1, (runMsgs fn ys).2) := by
  induction xs with
  | nil => rfl
  | cons n xs ih =>
    simp only [List.cons_append, runMsgs]
    rcases fn n with ⟨ms, _ | e⟩
    · simp only [ih]
      rcases runMsgs fn xs with ⟨ms', _ | e'⟩ <;> simp
    · rfl

/-- A visitor that only looks at comparisons. -/
def OnComparisons (fn : Node → List Msg × Option VErr) : Prop :=
  ∀ n, (∀ op f vs p, n ≠ .expr op f vs p) → fn n = ([], none)

theorem runMsgs_preorder (hfn : OnComparisons fn) (n : Node) :
    runMsgs fn ((preorder n).map Prod.fst) = runMsgs fn (comparisons n) := by
  induction n with
  | and l r ihl ihr =>
    simp only [preorder, comparisons, List.map_cons, List.map_append, runMsgs,
      hfn (.and l r) (by intros; simp), runMsgs_append, ihl, ihr, List.nil_append]
  | or l r ihl ihr =>
    simp only [preorder, comparisons, List.map_cons, List.map_append, runMsgs,
      hfn (.or l r) (by intros; simp), runMsgs_append, ihl, ihr, List.nil_append]
  | not e ih =>
    simp only [preorder, comparisons, List.map_cons, runMsgs, hfn (.not e) (by intros; simp), ih,
      List.nil_append]
  | subdoc f e ih =>
    simp only [preorder, comparisons, List.map_cons, runMsgs, hfn (.subdoc f e) (by intros; simp), ih,
      List.nil_append]
  | expr op f vs pos => rfl

/-- A visitor that returns no sentinel. -/
def NoSkip (fn : Node → List Msg × Option VErr) : Prop :=
  ∀ n, (fn n).2 = none ∨ ∃ m, (fn n).2 = some (.other m)

theorem runMsgs_runList (hk : NoSkip fn) (xs : List (Node × Nat)) (s : VState Unit) :
    runList (Visitor.message 0 fun u n => .ok (u, fn n) : Visitor Unit).visit 0 s xs =
      .ok (afterMsgs s (runMsgs fn (xs.map Prod.fst)).1, (runMsgs fn (xs.map Prod.fst)).2) := by
  induction xs generalizing s with
  | nil => simp [runList, runMsgs, afterMsgs_nil]
  | cons x xs ih =>
    obtain ⟨n, below⟩ := x
    have hk := hk n
    have hv : (Visitor.message 0 fun u n => .ok (u, fn n) : Visitor Unit).visit s n =
        .ok (afterMsgs s (fn n).1, (fn n).2) := by
      simp only [Visitor.visit, afterMsgs]
    rw [runList, hv]
    simp only [List.map_cons, runMsgs]
    rcases hm : fn n with ⟨ms, _ | e⟩
    · dsimp only
      rw [ih, afterMsgs_append]
    · rw [hm] at hk
      rcases hk with h | ⟨m, h⟩
      · cases h
      · simp only [Option.some.injEq] at h
        subst h
        rfl

theorem runMsgs_mem {ns : List Node} {m : Msg} (h : m ∈ (runMsgs fn ns).1) : ∃ n ∈ ns, m ∈ (fn n).1 := by
  induction ns with
  | nil => cases h
  | cons n ns ih =>
    simp only [runMsgs] at h
    rcases hm : fn n with ⟨ms, _ | e⟩
    · rw [hm] at h
      dsimp only at h
      rcases List.mem_append.1 h with h | h
      · exact ⟨n, by simp, by rw [hm]; exact h⟩
      · obtain ⟨n', h1, h2⟩ := ih h
        exact ⟨n', by simp [h1], h2⟩
    · rw [hm] at h
      exact ⟨n, by simp, by rw [hm]; exact h⟩

theorem runMsgs_none {ns : List Node} (h : ∀ n ∈ ns, (fn n).2 = none) : (runMsgs fn ns).2 = none := by
  induction ns with
  | nil => rfl
  | cons n ns ih =>
    have h1 := h n (by simp)
    simp only [runMsgs]
    rcases hm : fn n with ⟨ms, _ | e⟩
    · exact ih fun x hx => h x (by simp [hx])
    · rw [hm] at h1; cases h1

theorem runMsgs_some {ns : List Node} {e : VErr} (h : (runMsgs fn ns).2 = some e) :
    ∃ n ∈ ns, (fn n).2 = some e := by
  induction ns with
  | nil => cases h
  | cons n ns ih =>
    simp only [runMsgs] at h
    rcases hm : fn n with ⟨ms, _ | e'⟩
    · rw [hm] at h
      obtain ⟨x, hx, h1⟩ := ih h
      exact ⟨x, by simp [hx], h1⟩
    · rw [hm] at h
      exact ⟨n, by simp, by rw [hm]; exact h⟩

theorem warningFn_onComparisons : OnComparisons (warningFn E) := by
  intro n h
  cases n with
  | expr op f vs p => exact absurd rfl (h op f vs p)
  | _ => rfl

theorem warnVal_err (op : Op) (f : List Str) (p : Pos) (v : Val) : (warnVal E op f p v).2 = none ∨
    ∃ m, (warnVal E op f p v).2 = some (.other m) := by
  cases v with
  | regex sv src pos =>
    simp only [warnVal]
    split
    · exact Or.inr ⟨_, rfl⟩
    · exact Or.inl rfl
  | _ => exact Or.inl rfl

theorem warnVals_err (op : Op) (f : List Str) (p : Pos) (vs : List Val) : (warnVals E op f p vs).2 = none ∨
    ∃ m, (warnVals E op f p vs).2 = some (.other m) := by
  induction vs with
  | nil => exact Or.inl rfl
  | cons v vs ih =>
    have hv := warnVal_err E op f p v
    simp only [warnVals]
    rcases hm : warnVal E op f p v with ⟨ms, _ | e⟩
    · exact ih
    · rw [hm] at hv
      rcases hv with h | ⟨m, h⟩
      · cases h
      · exact Or.inr ⟨m, by simpa using h⟩

theorem warningFn_noSkip : NoSkip (warningFn E) := by
  intro n
  cases n with
  | expr op f vs p => exact warnVals_err E op f p vs
  | _ => exact Or.inl rfl

/-- What `parseAQL` returns after the grammar. -/
noncomputable def aqlOut : Except PErr Node → Except PErr (Node × List Msg)
  | .error e => .error e
  | .ok root =>
    match (comparisons root).findSome? (verdict E) with
    | some e => .error e
    | none =>
      match runMsgs (warningFn E) (comparisons root) with
      | (_, some e) => .error e.toPErr
      | (ms, none) => .ok (root, ms)

/-- `parseAQL` in closed form. -/
theorem parseAQL_eq (query : List UInt8) (out : Except PErr Node) (h : grammarOut E (decode query) = some out) :
    parseAQL E query = some (.ok (aqlOut E out)) := by
  unfold parseAQL parseQuery
  rw [h]
  simp only [Option.map_some, Option.some.injEq]
  cases out with
  | error e => rfl
  | ok root =>
    rw [finishParse_eq]
    simp only [aqlOut]
    cases (comparisons root).findSome? (verdict E) with
    | some e => rfl
    | none =>
      simp only [runVisitors, walk_runList, warningVisitor, runMsgs_runList (warningFn_noSkip E),
        runMsgs_preorder (warningFn_onComparisons E)]
      rcases runMsgs (warningFn E) (comparisons root) with ⟨ms, _ | e⟩
      · simp only [Visitor.tapeErr]
        have h1 : ((afterMsgs ⟨(), fun _ => Tape.new⟩ ms).tapes 0).firstErr = none := by
          simp only [afterMsgs, if_true]
          exact Tape.addMsgs_firstErr _ _ rfl
        have h2 : ((afterMsgs ⟨(), fun _ => Tape.new⟩ ms).tapes 0).messages = ms := by
          simp only [afterMsgs, if_true]
          rw [Tape.addMsgs_messages]; rfl
        simp only [h1, Option.map_none, h2]
      · rfl

/-- Messages of a comparison are at its position or at that of one of its values, and are no errors. -/
theorem warningFn_pos {op : Op} {f : List Str} {vs : List Val} {p : Pos} {m : Msg}
    (h : m ∈ (warningFn E (.expr op f vs p)).1) : m.type ≠ .error ∧ (m.pos = p ∨ ∃ v ∈ vs, m.pos = v.pos) := by
  have hval : ∀ v, m ∈ (warnVal E op f p v).1 → m.type ≠ .error ∧ (m.pos = p ∨ m.pos = v.pos) := by
    intro v h
    have key : ∀ {P : Prop} [Decidable P] {x : Msg}, m ∈ (if P then [x] else []) → m = x := by
      intro P _ x h
      split at h
      · exact List.mem_singleton.1 h
      · cases h
    have two : ∀ {P : Prop} [Decidable P] {x : List Msg}, m ∈ (if P then x else []) → m ∈ x := by
      intro P _ x h
      split at h
      · exact h
      · cases h
    cases v with
    | regex sv src pos =>
      have hints : ∀ reg, m ∈ reHints E f src pos reg → m.type ≠ .error ∧ (m.pos = p ∨ m.pos = pos) := by
        intro reg h
        unfold reHints at h
        simp only [List.mem_append] at h
        rcases h with (h | h) | h
        · rw [key h]; exact ⟨by simp, .inr rfl⟩
        · rw [key h]; exact ⟨by simp, .inr rfl⟩
        · have := two h
          rcases List.mem_append.1 this with h | h
          · rw [key h]; exact ⟨by simp, .inr rfl⟩
          · rw [key h]; exact ⟨by simp, .inr rfl⟩
      have pre : ∀ {a b c : List Msg}, m ∈ a ++ b ++ c → m ∈ a ∨ m ∈ b ∨ m ∈ c := by
        intro a b c h
        simp only [List.mem_append] at h
        tauto
      simp only [warnVal] at h
      split at h
      · rcases pre h with h | h | h
        · rw [key h]; exact ⟨by simp, .inl rfl⟩
        · rw [key h]; exact ⟨by simp, .inr rfl⟩
        · rw [key h]; exact ⟨by simp, .inr rfl⟩
      · rename_i reg _
        rcases List.mem_append.1 h with h | h
        · rcases pre h with h | h | h
          · rw [key h]; exact ⟨by simp, .inl rfl⟩
          · rw [key h]; exact ⟨by simp, .inr rfl⟩
          · rw [key h]; exact ⟨by simp, .inr rfl⟩
        · exact hints reg h
    | time a b c pos => simp only [warnVal] at h; rw [key h]; exact ⟨by simp, .inr rfl⟩
    | _ => cases h
  simp only [warningFn] at h
  induction vs with
  | nil => cases h
  | cons v vs ih =>
    simp only [warnVals] at h
    rcases hm : warnVal E op f p v with ⟨ms, _ | e⟩
    · rw [hm] at h
      rcases List.mem_append.1 h with h | h
      · obtain ⟨h1, h2 | h2⟩ := hval v (by rw [hm]; exact h)
        · exact ⟨h1, .inl h2⟩
        · exact ⟨h1, .inr ⟨v, by simp, h2⟩⟩
      · obtain ⟨h1, h2 | ⟨w, hw, h2⟩⟩ := ih h
        · exact ⟨h1, .inl h2⟩
        · exact ⟨h1, .inr ⟨w, by simp [hw], h2⟩⟩
    · rw [hm] at h
      obtain ⟨h1, h2 | h2⟩ := hval v (by rw [hm]; exact h)
      · exact ⟨h1, .inl h2⟩
      · exact ⟨h1, .inr ⟨v, by simp, h2⟩⟩

/-- No error if the patterns parse. -/
theorem warningFn_ok {op : Op} {f : List Str} {vs : List Val} {p : Pos}
    (h : ∀ sv src q, Val.regex sv src q ∈ vs → (E.reSyntax src).isSome) :
    (warningFn E (.expr op f vs p)).2 = none := by
  simp only [warningFn]
  induction vs with
  | nil => rfl
  | cons v vs ih =>
    have hv : (warnVal E op f p v).2 = none := by
      cases v with
      | regex sv src q =>
        have := h sv src q (by simp)
        simp only [warnVal]
        rcases h2 : E.reSyntax src with _ | reg
        · rw [h2] at this; cases this
        · rfl
      | _ => rfl
    simp only [warnVals]
    rcases hm : warnVal E op f p v with ⟨ms, _ | e⟩
    · exact ih fun sv src q hm => h sv src q (by simp [hm])
    · rw [hm] at hv; cases hv

theorem aqlOut_ok {out : Except PErr Node} {root : Node} {ms : List Msg} (h : aqlOut E out = .ok (root, ms)) :
    out = .ok root ∧ (comparisons root).findSome? (verdict E) = none ∧
      runMsgs (warningFn E) (comparisons root) = (ms, none) := by
  cases out with
  | error e => cases h
  | ok n =>
    simp only [aqlOut] at h
    rcases hv : (comparisons n).findSome? (verdict E) with _ | e
    · rw [hv] at h
      rcases hm : runMsgs (warningFn E) (comparisons n) with ⟨ms', _ | e⟩
      · rw [hm] at h
        cases h
        exact ⟨rfl, hv, hm⟩
      · rw [hm] at h; cases h
    · rw [hv] at h; cases h

theorem aqlOut_error {out : Except PErr Node} {e : PErr} (h : aqlOut E out = .error e) :
    out = .error e ∨ ∃ n, out = .ok n ∧ ((comparisons n).findSome? (verdict E) = some e ∨
      ∃ e', (runMsgs (warningFn E) (comparisons n)).2 = some e') := by
  cases out with
  | error e => cases h; exact .inl rfl
  | ok n =>
    refine .inr ⟨n, rfl, ?_⟩
    simp only [aqlOut] at h
    rcases hv : (comparisons n).findSome? (verdict E) with _ | e'
    · rw [hv] at h
      rcases hm : runMsgs (warningFn E) (comparisons n) with ⟨ms', _ | e'⟩
      · rw [hm] at h; cases h
      · exact .inr ⟨e', rfl⟩
    · rw [hv] at h; cases h; exact .inl rfl

end Aql
