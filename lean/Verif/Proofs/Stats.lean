import Verif.Model.Concurrent
import Mathlib.Data.List.Count
/-!
The counters as counts of increments; the stack machine refines `BoolNode.result`.
-/

namespace Aql

theorem ticks_apply (ts : List Tick) (c : Counters) (a : Addr) :
    c.ticks ts a = ((c a).1 + ts.count (.checked a), (c a).2 + ts.count (.matched a)) := by
  induction ts generalizing c with
  | nil => simp [Counters.ticks]
  | cons t ts ih =>
    rw [show c.ticks (t :: ts) = (c.tick t).ticks ts from rfl, ih]
    cases t with
    | checked b =>
      by_cases h : a = b
      · subst h; simp [Counters.tick]; omega
      · have : ¬ b = a := fun e => h e.symm
        simp [Counters.tick, h, this]
    | matched b =>
      by_cases h : a = b
      · subst h; simp [Counters.tick]; omega
      · have : ¬ b = a := fun e => h e.symm
        simp [Counters.tick, h, this]

/-- The node a counter belongs to. -/
def Tick.addr : Tick → Addr
  | .checked a => a
  | .matched a => a

variable (E : Env)

theorem markTicks_addr {a : Addr} {b : Bool} {t : Tick} (h : t ∈ markTicks a b) : t.addr = a := by
  unfold markTicks at h
  split at h
  · simp at h; rcases h with rfl | rfl <;> rfl
  · simp at h; subst h; rfl

/-- All counters touched belong to the subtree. -/
theorem result_addr (n : BoolNode) (d : Json) (a : Addr) :
    ∀ t ∈ (n.result E d a).1, a <+: t.addr := by
  induction n generalizing a with
  | and l r ihl ihr =>
    have hl : ∀ t ∈ (l.result E d (a ++ [false])).1, a <+: t.addr :=
      fun t ht => (List.prefix_append _ _).trans (ihl _ t ht)
    have hr : ∀ t ∈ (r.result E d (a ++ [true])).1, a <+: t.addr :=
      fun t ht => (List.prefix_append _ _).trans (ihr _ t ht)
    unfold BoolNode.result
    rcases h1 : l.result E d (a ++ [false]) with ⟨t1, e | _ | _⟩ <;> rw [h1] at hl <;> dsimp only at hl ⊢
    · exact hl
    · intro t ht
      rcases List.mem_append.1 ht with ht | ht
      · exact hl t ht
      · exact (markTicks_addr ht) ▸ List.prefix_refl _
    · rcases h2 : r.result E d (a ++ [true]) with ⟨t2, e | b⟩ <;> rw [h2] at hr <;> dsimp only at hr ⊢
      · intro t ht
        rcases List.mem_append.1 ht with ht | ht
        · exact hl t ht
        · exact hr t ht
      · intro t ht
        rcases List.mem_append.1 ht with ht | ht
        · rcases List.mem_append.1 ht with ht | ht
          · exact hl t ht
          · exact hr t ht
        · exact (markTicks_addr ht) ▸ List.prefix_refl _
  | or l r ihl ihr =>
    have hl : ∀ t ∈ (l.result E d (a ++ [false])).1, a <+: t.addr :=
      fun t ht => (List.prefix_append _ _).trans (ihl _ t ht)
    have hr : ∀ t ∈ (r.result E d (a ++ [true])).1, a <+: t.addr :=
      fun t ht => (List.prefix_append _ _).trans (ihr _ t ht)
    unfold BoolNode.result
    rcases h1 : l.result E d (a ++ [false]) with ⟨t1, e | _ | _⟩ <;> rw [h1] at hl <;> dsimp only at hl ⊢
    · exact hl
    · rcases h2 : r.result E d (a ++ [true]) with ⟨t2, e | b⟩ <;> rw [h2] at hr <;> dsimp only at hr ⊢
      · intro t ht
        rcases List.mem_append.1 ht with ht | ht
        · exact hl t ht
        · exact hr t ht
      · intro t ht
        rcases List.mem_append.1 ht with ht | ht
        · rcases List.mem_append.1 ht with ht | ht
          · exact hl t ht
          · exact hr t ht
        · exact (markTicks_addr ht) ▸ List.prefix_refl _
    · intro t ht
      rcases List.mem_append.1 ht with ht | ht
      · exact hl t ht
      · exact (markTicks_addr ht) ▸ List.prefix_refl _
  | not e ih =>
    have hl : ∀ t ∈ (e.result E d (a ++ [false])).1, a <+: t.addr :=
      fun t ht => (List.prefix_append _ _).trans (ih _ t ht)
    unfold BoolNode.result
    rcases h1 : e.result E d (a ++ [false]) with ⟨t1, e | b⟩ <;> rw [h1] at hl <;> dsimp only at hl ⊢
    · exact hl
    · intro t ht
      rcases List.mem_append.1 ht with ht | ht
      · exact hl t ht
      · exact (markTicks_addr ht) ▸ List.prefix_refl _
  | expr path es name =>
    unfold BoolNode.result
    rcases exprResult E path es d with e | b
    · simp
    · intro t ht; exact (markTicks_addr ht) ▸ List.prefix_refl _
  | nil => simp [BoolNode.result]

/-- Below a child there is no counter of the parent. -/
theorem count_child (n : BoolNode) (d : Json) (a : Addr) (x : Bool) :
    (n.result E d (a ++ [x])).1.count (.checked a) = 0 ∧
    (n.result E d (a ++ [x])).1.count (.matched a) = 0 := by
  constructor <;>
  · rw [List.count_eq_zero]
    intro h
    have := (result_addr E n d _ _ h).length_le
    simp [Tick.addr] at this

/-- 1 when the evaluation finished. -/
def finished : GoM Bool → Nat
  | .ok _ => 1
  | .error _ => 0

/-- 1 when the evaluation returned true. -/
def wasTrue : GoM Bool → Nat
  | .ok true => 1
  | _ => 0

theorem count_markTicks (a : Addr) (b : Bool) :
    (markTicks a b).count (.checked a) = 1 ∧
    (markTicks a b).count (.matched a) = wasTrue (.ok b) := by
  cases b <;> simp [markTicks, wasTrue]

/-- One evaluation updates the counters of its node once. -/
theorem count_self (n : BoolNode) (d : Json) (a : Addr) :
    (n.result E d a).1.count (.checked a) = finished (n.result E d a).2 ∧
    (n.result E d a).1.count (.matched a) = wasTrue (n.result E d a).2 := by
  cases n with
  | and l r =>
    have hl := count_child E l d a false
    have hr := count_child E r d a true
    unfold BoolNode.result
    rcases h1 : l.result E d (a ++ [false]) with ⟨t1, e | _ | _⟩ <;> rw [h1] at hl <;> dsimp only at hl ⊢
    · exact hl
    · have := count_markTicks a false
      simp [List.count_append, hl, this, finished]
    · rcases h2 : r.result E d (a ++ [true]) with ⟨t2, e | b⟩ <;> rw [h2] at hr <;> dsimp only at hr ⊢
      · simp [List.count_append, hl, hr, finished, wasTrue]
      · have := count_markTicks a b
        simp [List.count_append, hl, hr, this, finished]
  | or l r =>
    have hl := count_child E l d a false
    have hr := count_child E r d a true
    unfold BoolNode.result
    rcases h1 : l.result E d (a ++ [false]) with ⟨t1, e | _ | _⟩ <;> rw [h1] at hl <;> dsimp only at hl ⊢
    · exact hl
    · rcases h2 : r.result E d (a ++ [true]) with ⟨t2, e | b⟩ <;> rw [h2] at hr <;> dsimp only at hr ⊢
      · simp [List.count_append, hl, hr, finished, wasTrue]
      · have := count_markTicks a b
        simp [List.count_append, hl, hr, this, finished]
    · have := count_markTicks a true
      simp [List.count_append, hl, this, finished]
  | not e =>
    have hl := count_child E e d a false
    unfold BoolNode.result
    rcases h1 : e.result E d (a ++ [false]) with ⟨t1, e | b⟩ <;> rw [h1] at hl <;> dsimp only at hl ⊢
    · exact hl
    · have := count_markTicks a (!b)
      simp [List.count_append, hl, this, finished]
  | expr path es name =>
    unfold BoolNode.result
    rcases exprResult E path es d with e | b
    · simp [finished, wasTrue]
    · have := count_markTicks a b
      simp [this, finished]
  | nil => simp [BoolNode.result, finished, wasTrue]

/-! ## The stack machine -/

/-- What is still to be counted and returned by the current activity. -/
def remCtl (d : Json) : Ctl → List Tick × GoM Bool
  | .eval n a => n.result E d a
  | .incChecked a b => (markTicks a b, .ok b)
  | .incMatched a => ([.matched a], .ok true)
  | .ret b => ([], .ok b)
  | .panic p => ([], .error p)

/-- One frame applied to the result of its operand. -/
def remFrame (d : Json) (f : Frame) (x : List Tick × GoM Bool) : List Tick × GoM Bool :=
  match x.2 with
  | .error e => (x.1, .error e)
  | .ok b =>
    match f with
    | .andL r a =>
      if b then
        match r.result E d (a ++ [true]) with
        | (t2, .error e) => (x.1 ++ t2, .error e)
        | (t2, .ok b) => (x.1 ++ t2 ++ markTicks a b, .ok b)
      else (x.1 ++ markTicks a false, .ok false)
    | .andR a => (x.1 ++ markTicks a b, .ok b)
    | .orL r a =>
      if b then (x.1 ++ markTicks a true, .ok true)
      else
        match r.result E d (a ++ [true]) with
        | (t2, .error e) => (x.1 ++ t2, .error e)
        | (t2, .ok b) => (x.1 ++ t2 ++ markTicks a b, .ok b)
    | .orR a => (x.1 ++ markTicks a b, .ok b)
    | .notK a => (x.1 ++ markTicks a (!b), .ok (!b))

/-- All that a call still has to count, and its result. -/
def remStack (d : Json) : List Frame → List Tick × GoM Bool → List Tick × GoM Bool
  | [], x => x
  | f :: st, x => remStack d st (remFrame E d f x)

/-- All that a call still has to count, and its result. -/
def Call.rem (c : Call) : List Tick × GoM Bool := remStack E c.doc c.stack (remCtl E c.doc c.ctl)

theorem remFrame_cons (d : Json) (f : Frame) (t : Tick) (x : List Tick × GoM Bool) :
    remFrame E d f (t :: x.1, x.2) = (t :: (remFrame E d f x).1, (remFrame E d f x).2) := by
  obtain ⟨ts, e | b⟩ := x
  · rfl
  · cases f with
    | andL r a =>
      cases b
      · rfl
      · simp only [remFrame, if_true]
        rcases r.result E d (a ++ [true]) with ⟨t2, e | b⟩ <;> rfl
    | andR a => rfl
    | orL r a =>
      cases b
      · simp only [remFrame]
        rcases r.result E d (a ++ [true]) with ⟨t2, e | b⟩ <;> rfl
      · rfl
    | orR a => rfl
    | notK a => rfl

theorem remStack_cons (d : Json) (st : List Frame) (t : Tick) (x : List Tick × GoM Bool) :
    remStack E d st (t :: x.1, x.2) = (t :: (remStack E d st x).1, (remStack E d st x).2) := by
  induction st generalizing x with
  | nil => rfl
  | cons f st ih =>
    simp only [remStack]
    rw [remFrame_cons]
    exact ih (remFrame E d f x)

theorem remStack_panic (d : Json) (st : List Frame) (p : GoPanic) :
    remStack E d st ([], .error p) = ([], .error p) := by
  induction st with
  | nil => rfl
  | cons f st ih => simp only [remStack, remFrame]; exact ih

/-- One step of a call performs exactly the next of its pending increments, or none. -/
theorem Call.step_rem {c c' : Call} {cnt cnt' : Counters} (h : c.step E cnt = some (c', cnt')) :
    c'.doc = c.doc ∧ (c'.rem E).2 = (c.rem E).2 ∧
    ((cnt' = cnt ∧ (c.rem E).1 = (c'.rem E).1) ∨
      ∃ t, cnt' = cnt.tick t ∧ (c.rem E).1 = t :: (c'.rem E).1) := by
  obtain ⟨d, ctl, st⟩ := c
  cases ctl with
  | eval n a =>
    cases n with
    | and l r =>
      cases h
      refine ⟨rfl, ?_⟩
      have : Call.rem E ⟨d, .eval (.and l r) a, st⟩ = Call.rem E ⟨d, .eval l (a ++ [false]), .andL r a :: st⟩ := by
        simp only [Call.rem, remStack, remCtl]
        congr 1
        rw [BoolNode.result]
        rcases l.result E d (a ++ [false]) with ⟨t1, e | _ | _⟩ <;> rfl
      rw [this]
      exact ⟨rfl, .inl ⟨rfl, rfl⟩⟩
    | or l r =>
      cases h
      refine ⟨rfl, ?_⟩
      have : Call.rem E ⟨d, .eval (.or l r) a, st⟩ = Call.rem E ⟨d, .eval l (a ++ [false]), .orL r a :: st⟩ := by
        simp only [Call.rem, remStack, remCtl]
        congr 1
        rw [BoolNode.result]
        rcases l.result E d (a ++ [false]) with ⟨t1, e | _ | _⟩ <;> rfl
      rw [this]
      exact ⟨rfl, .inl ⟨rfl, rfl⟩⟩
    | not e =>
      cases h
      refine ⟨rfl, ?_⟩
      have : Call.rem E ⟨d, .eval (.not e) a, st⟩ = Call.rem E ⟨d, .eval e (a ++ [false]), .notK a :: st⟩ := by
        simp only [Call.rem, remStack, remCtl]
        congr 1
        rw [BoolNode.result]
        rcases e.result E d (a ++ [false]) with ⟨t1, e | _ | _⟩ <;> rfl
      rw [this]
      exact ⟨rfl, .inl ⟨rfl, rfl⟩⟩
    | expr path es name =>
      simp only [Call.step] at h
      rcases hx : exprResult E path es d with e | b
      · rw [hx] at h; cases h
        refine ⟨rfl, ?_⟩
        simp only [Call.rem, remCtl, BoolNode.result, hx]
        exact ⟨trivial, .inl ⟨trivial, trivial⟩⟩
      · rw [hx] at h; cases h
        refine ⟨rfl, ?_⟩
        simp only [Call.rem, remCtl, BoolNode.result, hx]
        exact ⟨trivial, .inl ⟨trivial, trivial⟩⟩
    | nil => cases h; exact ⟨rfl, rfl, .inl ⟨rfl, rfl⟩⟩
  | incChecked a b =>
    cases b
    · cases h
      have := remStack_cons E d st (.checked a) ([], .ok false)
      refine ⟨rfl, ?_, .inr ⟨_, rfl, ?_⟩⟩
      · exact (congrArg Prod.snd this).symm
      · exact congrArg Prod.fst this
    · cases h
      have := remStack_cons E d st (.checked a) ([.matched a], .ok true)
      refine ⟨rfl, ?_, .inr ⟨_, rfl, ?_⟩⟩
      · exact (congrArg Prod.snd this).symm
      · exact congrArg Prod.fst this
  | incMatched a =>
    cases h
    have := remStack_cons E d st (.matched a) ([], .ok true)
    refine ⟨rfl, ?_, .inr ⟨_, rfl, ?_⟩⟩
    · exact (congrArg Prod.snd this).symm
    · exact congrArg Prod.fst this
  | panic p => simp [Call.step] at h
  | ret b =>
    cases st with
    | nil => simp [Call.step] at h
    | cons f st =>
      have key : ∀ c2 : Call, c2.doc = d → c2.rem E = Call.rem E ⟨d, .ret b, f :: st⟩ →
          c' = c2 → cnt' = cnt → c'.doc = d ∧ (c'.rem E).2 = (Call.rem E ⟨d, .ret b, f :: st⟩).2 ∧
          ((cnt' = cnt ∧ (Call.rem E ⟨d, .ret b, f :: st⟩).1 = (c'.rem E).1) ∨
            ∃ t, cnt' = cnt.tick t ∧ (Call.rem E ⟨d, .ret b, f :: st⟩).1 = t :: (c'.rem E).1) := by
        rintro c2 h1 h2 rfl rfl
        rw [h2]
        exact ⟨h1, rfl, .inl ⟨rfl, rfl⟩⟩
      cases f with
      | andL r a =>
        cases b
        · cases h; refine key _ ?_ ?_ rfl rfl <;> rfl
        · cases h
          refine key _ rfl ?_ rfl rfl
          simp only [Call.rem, remStack, remCtl, remFrame]
          rcases r.result E d (a ++ [true]) with ⟨t2, e | b⟩ <;> simp
      | andR a => cases b <;> cases h <;> refine key _ ?_ ?_ rfl rfl <;> rfl
      | orL r a =>
        cases b
        · cases h
          refine key _ rfl ?_ rfl rfl
          simp only [Call.rem, remStack, remCtl, remFrame]
          rcases r.result E d (a ++ [true]) with ⟨t2, e | b⟩ <;> simp
        · cases h; refine key _ ?_ ?_ rfl rfl <;> rfl
      | orR a => cases b <;> cases h <;> refine key _ ?_ ?_ rfl rfl <;> rfl
      | notK a => cases b <;> cases h <;> refine key _ ?_ ?_ rfl rfl <;> rfl

/-- A call that cannot move has an outcome, the one it was bound to have. -/
theorem Call.stuck {c : Call} {cnt : Counters} (h : c.step E cnt = none) :
    (c.rem E).1 = [] ∧ c.outcome = some (match (c.rem E).2 with
      | .ok b => .result b
      | .error p => .panic p) := by
  obtain ⟨d, ctl, st⟩ := c
  cases ctl with
  | eval n a =>
    cases n with
    | expr path es name =>
      simp only [Call.step] at h
      rcases hx : exprResult E path es d with e | b <;> rw [hx] at h <;> cases h
    | _ => simp [Call.step] at h
  | incChecked a b => cases b <;> simp [Call.step] at h
  | incMatched a => simp [Call.step] at h
  | panic p =>
    have : Call.rem E ⟨d, .panic p, st⟩ = ([], .error p) := remStack_panic E d st p
    rw [this]
    exact ⟨rfl, rfl⟩
  | ret b =>
    cases st with
    | nil => exact ⟨rfl, rfl⟩
    | cons f st => cases f <;> cases b <;> simp [Call.step] at h

theorem Call.outcome_stuck {c : Call} {o : MatchOut} (h : c.outcome = some o) (cnt : Counters) :
    c.step E cnt = none := by
  obtain ⟨d, ctl, st⟩ := c
  cases ctl with
  | ret b => cases st with
    | nil => cases b <;> rfl
    | cons => cases h
  | panic p => rfl
  | _ => cases h

/-! ## Termination -/

/-- Steps an evaluation can take, at most. -/
def BoolNode.work : BoolNode → Nat
  | .and l r => l.work + r.work + 8
  | .or l r => l.work + r.work + 8
  | .not e => e.work + 8
  | .expr _ _ _ => 4
  | .nil => 1

/-- Remaining work of a frame. -/
def Frame.work : Frame → Nat
  | .andL r _ => r.work + 6
  | .andR _ => 4
  | .orL r _ => r.work + 6
  | .orR _ => 4
  | .notK _ => 4

/-- Remaining work of an activity. -/
def Ctl.work : Ctl → Nat
  | .eval n _ => n.work
  | .incChecked _ _ => 3
  | .incMatched _ => 2
  | .ret _ => 1
  | .panic _ => 0

/-- Remaining work of a call. -/
def Call.work (c : Call) : Nat := c.ctl.work + (c.stack.map Frame.work).sum

theorem Call.step_work {c c' : Call} {cnt cnt' : Counters} (h : c.step E cnt = some (c', cnt')) :
    c'.work < c.work := by
  obtain ⟨d, ctl, st⟩ := c
  cases ctl with
  | eval n a =>
    cases n with
    | expr path es name =>
      simp only [Call.step] at h
      rcases hx : exprResult E path es d with e | b <;> rw [hx] at h <;> cases h <;>
        simp [Call.work, Ctl.work, BoolNode.work]
    | _ => cases h; simp [Call.work, Ctl.work, BoolNode.work, Frame.work]; try omega
  | incChecked a b => cases b <;> cases h <;> simp [Call.work, Ctl.work]
  | incMatched a => cases h; simp [Call.work, Ctl.work]
  | panic p => simp [Call.step] at h
  | ret b =>
    cases st with
    | nil => simp [Call.step] at h
    | cons f st =>
      cases f <;> cases b <;> cases h <;> simp [Call.work, Ctl.work, Frame.work] <;> omega

/-! ## Counters never show more matches than checks -/

/-- 1 when the call has counted a check of the node and is about to count the match. -/
def Call.half (c : Call) (a : Addr) : Nat :=
  match c.ctl with
  | .incMatched b => if b = a then 1 else 0
  | _ => 0

theorem Call.step_half {c c' : Call} {cnt cnt' : Counters} (h : c.step E cnt = some (c', cnt'))
    (a : Addr) : (cnt' a).2 + c'.half a + (cnt a).1 ≤ (cnt' a).1 + (cnt a).2 + c.half a := by
  obtain ⟨d, ctl, st⟩ := c
  cases ctl with
  | eval n a =>
    cases n with
    | expr path es name =>
      simp only [Call.step] at h
      rcases hx : exprResult E path es d with e | b <;> rw [hx] at h <;> cases h <;>
        simp [Call.half] <;> omega
    | _ => cases h; simp [Call.half]; omega
  | incChecked b r =>
    cases r <;> cases h <;> simp only [Call.half, Counters.tick]
    · split <;> simp <;> omega
    · by_cases e : b = a
      · subst e; simp; omega
      · have : ¬ a = b := fun h => e h.symm
        simp [e, this]; omega
  | incMatched b =>
    cases h
    simp only [Call.half, Counters.tick]
    by_cases e : b = a
    · subst e; simp; omega
    · have : ¬ a = b := fun h => e h.symm
      simp [e, this]; omega
  | panic p => simp [Call.step] at h
  | ret b =>
    cases st with
    | nil => simp [Call.step] at h
    | cons f st =>
      cases f <;> cases b <;> cases h <;> simp [Call.half] <;> omega

end Aql
