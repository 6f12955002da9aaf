import Verif.Props.Stats
/-!
C42 exactly: which pairs of numbers `Stats` can return while `Match` calls are running.
-/

namespace Aql

open Spec

variable {E : Env}

/-! ### Every schedule stays in the range -/

theorem sysStep_cnt {s s' : Sys} (h : SysStep E s s') (a : Addr) :
    (s.cnt a).1 ≤ (s'.cnt a).1 ∧ (s.cnt a).2 ≤ (s'.cnt a).2 := by
  cases h with
  | reader _ => exact ⟨Nat.le_refl _, Nat.le_refl _⟩
  | call hs =>
    obtain ⟨-, -, ⟨rfl, -⟩ | ⟨t, rfl, -⟩⟩ := Call.step_rem E hs
    · exact ⟨Nat.le_refl _, Nat.le_refl _⟩
    · cases t <;> simp only [Counters.tick] <;> split <;> simp

theorem sum_answered (m : Matcher) (ds : List Json) :
    (ds.map (fun d => (m.root.result E d []).1.count (.checked []))).sum =
      ds.countP (fun d => (m.match E (.valid d)).2.answered) ∧
    (ds.map (fun d => (m.root.result E d []).1.count (.matched []))).sum =
      ds.countP (fun d => (m.match E (.valid d)).2.yes) := by
  induction ds with
  | nil => exact ⟨rfl, rfl⟩
  | cons d ds ih =>
    have hc := count_self E m.root d []
    simp only [List.map_cons, List.sum_cons, List.countP_cons, ih.1, ih.2, hc.1, hc.2, match_valid_snd]
    rcases (m.root.result E d []).2 with e | _ | _ <;> simp [finished, wasTrue, MatchOut.answered, MatchOut.yes] <;> omega

/-- What a reader has loaded lies in the range of the counters. -/
def InRange (lo1 hi1 lo2 hi2 : Nat) : Reader → Prop
  | .start => True
  | .loadedChecked c => lo1 ≤ c ∧ c ≤ hi1
  | .done c n => (lo1 ≤ c ∧ c ≤ hi1) ∧ lo2 ≤ n ∧ n ≤ hi2

theorem run_range {m : Matcher} {ds : List Json} {k : Nat} {s : Sys} (h : SysRun E (Sys.start m ds k) s) :
    ((m.counters []).1 ≤ (s.cnt []).1 ∧ (m.counters []).2 ≤ (s.cnt []).2) ∧
    ∀ r ∈ s.readers, InRange (m.counters []).1
      ((m.counters []).1 + ds.countP (fun d => (m.match E (.valid d)).2.answered)) (m.counters []).2
      ((m.counters []).2 + ds.countP (fun d => (m.match E (.valid d)).2.yes)) r := by
  generalize hs0 : Sys.start m ds k = s0 at h
  induction h with
  | refl =>
    subst hs0
    refine ⟨⟨Nat.le_refl _, Nat.le_refl _⟩, fun r hr => ?_⟩
    rw [List.eq_of_mem_replicate hr]
    trivial
  | @step t u hrun hstep ih =>
    obtain ⟨⟨i1, i2⟩, i3⟩ := ih
    have hmono := sysStep_cnt hstep []
    refine ⟨⟨i1.trans hmono.1, i2.trans hmono.2⟩, ?_⟩
    cases hstep with
    | call _ => exact i3
    | @reader cnt cs pre r r' post hs =>
      subst hs0
      have hinv := SysRun.inv hrun
      have c1 := hinv.counts (.checked [])
      have c2 := hinv.counts (.matched [])
      dsimp only at c1 c2 i1 i2 i3
      rw [(sum_answered m ds).1] at c1
      rw [(sum_answered m ds).2] at c2
      intro x hx
      rcases List.mem_append.1 hx with hx | hx
      · exact i3 x (List.mem_append_left _ hx)
      rcases List.mem_cons.1 hx with rfl | hx
      · have hr := i3 r (by simp)
        cases r with
        | start => cases hs; exact ⟨i1, by omega⟩
        | loadedChecked c => cases hs; exact ⟨hr, i2, by omega⟩
        | done c n => cases hs
      · exact i3 x (by simp [hx])

/-! ### Every pair in the range is shown by some schedule -/

/-- The counts of an evaluation: those of its node come last, the check before the match. -/
theorem result_marks (n : BoolNode) (d : Json) (a : Addr) :
    (∃ pre b, (n.result E d a).1 = pre ++ markTicks a b ∧ ∀ t ∈ pre, t.addr ≠ a) ∨
    ∀ t ∈ (n.result E d a).1, t.addr ≠ a := by
  have child : ∀ (n : BoolNode) (x : Bool), ∀ t ∈ (n.result E d (a ++ [x])).1, t.addr ≠ a := by
    intro n x t ht he
    have := (result_addr E n d _ t ht).length_le
    rw [he] at this
    simp at this
  cases n with
  | and l r =>
    have hl := child l false
    have hr := child r true
    unfold BoolNode.result
    rcases h1 : l.result E d (a ++ [false]) with ⟨t1, e | _ | _⟩ <;> rw [h1] at hl <;> dsimp only at hl ⊢
    · exact .inr hl
    · exact .inl ⟨t1, false, rfl, hl⟩
    · rcases h2 : r.result E d (a ++ [true]) with ⟨t2, e | b⟩ <;> rw [h2] at hr <;> dsimp only at hr ⊢
      · exact .inr fun t ht => (List.mem_append.1 ht).elim (hl t) (hr t)
      · exact .inl ⟨t1 ++ t2, b, rfl, fun t ht => (List.mem_append.1 ht).elim (hl t) (hr t)⟩
  | or l r =>
    have hl := child l false
    have hr := child r true
    unfold BoolNode.result
    rcases h1 : l.result E d (a ++ [false]) with ⟨t1, e | _ | _⟩ <;> rw [h1] at hl <;> dsimp only at hl ⊢
    · exact .inr hl
    · rcases h2 : r.result E d (a ++ [true]) with ⟨t2, e | b⟩ <;> rw [h2] at hr <;> dsimp only at hr ⊢
      · exact .inr fun t ht => (List.mem_append.1 ht).elim (hl t) (hr t)
      · exact .inl ⟨t1 ++ t2, b, rfl, fun t ht => (List.mem_append.1 ht).elim (hl t) (hr t)⟩
    · exact .inl ⟨t1, true, rfl, hl⟩
  | not e =>
    have hl := child e false
    unfold BoolNode.result
    rcases h1 : e.result E d (a ++ [false]) with ⟨t1, e | b⟩ <;> rw [h1] at hl <;> dsimp only at hl ⊢
    · exact .inr hl
    · exact .inl ⟨t1, !b, rfl, hl⟩
  | expr path es name =>
    unfold BoolNode.result
    rcases exprResult E path es d with e | b
    · exact .inr (by simp)
    · exact .inl ⟨[], b, rfl, by simp⟩
  | nil => exact .inr (by simp [BoolNode.result])

/-- The pending counts are the rest of those of the evaluation. -/
def Call.Sane (E : Env) (root : BoolNode) (c : Call) : Prop := (c.rem E).1 <:+ (root.result E c.doc []).1

theorem Call.Sane.step {root : BoolNode} {c c' : Call} {cnt cnt' : Counters} (h : c.Sane E root)
    (hs : c.step E cnt = some (c', cnt')) : c'.Sane E root := by
  obtain ⟨h1, -, ⟨-, h2⟩ | ⟨t, -, h2⟩⟩ := Call.step_rem E hs
  · unfold Call.Sane at *
    rw [h1, ← h2]; exact h
  · unfold Call.Sane at *
    rw [h1]
    exact List.IsSuffix.trans ⟨[t], h2.symm⟩ h

/-- While the check is pending, the match is not next. -/
theorem Call.Sane.order {root : BoolNode} {c : Call} (h : c.Sane E root) {t : Tick} {r : List Tick}
    (he : (c.rem E).1 = t :: r) (hp : Tick.checked [] ∈ (c.rem E).1) : t ≠ .matched [] := by
  rintro rfl
  obtain ⟨q, hq⟩ := h
  rw [he] at hq hp
  rcases result_marks (E := E) root c.doc [] with ⟨pre, b, h1, h2⟩ | h1
  · rw [h1] at hq
    have hp' : Tick.checked [] ∈ r := by simpa using hp
    rcases List.append_eq_append_iff.1 hq with ⟨x, h3, h4⟩ | ⟨x, h3, h4⟩
    · cases x with
      | nil =>
        rw [List.nil_append] at h4
        cases b <;> simp [markTicks] at h4
      | cons y x =>
        rw [List.cons_append, List.cons.injEq] at h4
        obtain ⟨rfl, -⟩ := h4
        exact h2 (.matched []) (by rw [h3]; simp) rfl
    · -- the rest begins inside the marks
      cases b with
      | false =>
        simp only [markTicks] at h4
        cases x with
        | nil => simp at h4
        | cons y x =>
          simp only [Bool.false_eq_true, if_false, List.cons_append, List.cons.injEq] at h4
          have := congrArg List.length h4.2
          simp at this
      | true =>
        simp only [markTicks] at h4
        cases x with
        | nil => simp at h4
        | cons y x =>
          simp only [if_true, List.cons_append, List.cons.injEq] at h4
          have h5 := h4.2
          cases x with
          | nil =>
            simp only [List.nil_append, List.cons.injEq, true_and] at h5
            subst h5
            cases hp'
          | cons z x =>
            have := congrArg List.length h5
            simp at this
  · exact h1 (.matched []) (by rw [← hq]; simp) rfl

theorem SysRun.trans {s t u : Sys} (h1 : SysRun E s t) (h2 : SysRun E t u) : SysRun E s u := by
  induction h2 with
  | refl => exact h1
  | step _ hs ih => exact .step ih hs

/-- A pending count of the root: the call can move. -/
theorem pending_step {s : Sys} {t : Tick} (h : 0 < (s.calls.map (fun c => (c.rem E).1.count t)).sum) :
    ∃ pre c post c' cnt', s.calls = pre ++ c :: post ∧ t ∈ (c.rem E).1 ∧ c.step E s.cnt = some (c', cnt') ∧
      SysStep E s ⟨cnt', pre ++ c' :: post, s.readers⟩ := by
  have hex : ∃ c ∈ s.calls, t ∈ (c.rem E).1 := by
    by_contra hno
    push Not at hno
    have : (s.calls.map (fun c => (c.rem E).1.count t)).sum = 0 := by
      apply List.sum_eq_zero
      intro x hx
      obtain ⟨c, hc, rfl⟩ := List.mem_map.1 hx
      exact List.count_eq_zero.2 (hno c hc)
    omega
  obtain ⟨c, hc, ht⟩ := hex
  obtain ⟨pre, post, e⟩ := List.append_of_mem hc
  cases hs : c.step E s.cnt with
  | none =>
    rw [(Call.stuck E hs).1] at ht
    cases ht
  | some p =>
    obtain ⟨c', cnt'⟩ := p
    refine ⟨pre, c, post, c', cnt', e, ht, hs, ?_⟩
    obtain ⟨cnt, calls, rs⟩ := s
    dsimp only at e hs ⊢
    subst e
    exact .call hs

/-- The checks of the root can be counted one by one, no match being counted. -/
theorem reach_checked (root : BoolNode) (target : Nat) : ∀ (w : Nat) (s : Sys), s.work ≤ w →
    (∀ c ∈ s.calls, c.Sane E root) → (s.cnt []).1 ≤ target →
    target ≤ (s.cnt []).1 + (s.calls.map (fun c => (c.rem E).1.count (.checked []))).sum →
    ∃ s', SysRun E s s' ∧ (s'.cnt []).1 = target ∧ (s'.cnt []).2 = (s.cnt []).2 ∧ s'.readers = s.readers := by
  intro w
  induction w with
  | zero =>
    intro s hw hsane h1 h2
    by_cases heq : (s.cnt []).1 = target
    · exact ⟨s, .refl _, heq, rfl, rfl⟩
    · obtain ⟨pre, c, post, c', cnt', -, -, -, hstep⟩ := pending_step (E := E) (s := s) (t := .checked []) (by omega)
      have := SysStep.work hstep
      omega
  | succ w ih =>
    intro s hw hsane h1 h2
    by_cases heq : (s.cnt []).1 = target
    · exact ⟨s, .refl _, heq, rfl, rfl⟩
    · obtain ⟨pre, c, post, c', cnt', he, hmem, hs, hstep⟩ := pending_step (E := E) (s := s) (t := .checked []) (by omega)
      have hwork := SysStep.work hstep
      have hc : c.Sane E root := hsane c (by rw [he]; simp)
      obtain ⟨-, -, h3⟩ := Call.step_rem E hs
      have hsane' : ∀ x ∈ pre ++ c' :: post, x.Sane E root := by
        intro x hx
        rcases List.mem_append.1 hx with hx | hx
        · exact hsane x (by rw [he]; simp [hx])
        rcases List.mem_cons.1 hx with rfl | hx
        · exact hc.step hs
        · exact hsane x (by rw [he]; simp [hx])
      have hsum : ∀ t, (s.calls.map (fun c => (c.rem E).1.count t)).sum + (c'.rem E).1.count t =
          ((pre ++ c' :: post).map (fun c => (c.rem E).1.count t)).sum + (c.rem E).1.count t := by
        intro t
        rw [he]
        simp only [List.map_append, List.map_cons, List.sum_append, List.sum_cons]
        omega
      have hsum1 := hsum (.checked [])
      have key : (cnt' []).2 = (s.cnt []).2 ∧ (cnt' []).1 + (c'.rem E).1.count (.checked []) =
          (s.cnt []).1 + (c.rem E).1.count (.checked []) ∧ (cnt' []).1 ≤ (s.cnt []).1 + 1 := by
        rcases h3 with ⟨rfl, e⟩ | ⟨t, rfl, e⟩
        · rw [e]; exact ⟨rfl, rfl, Nat.le_succ _⟩
        · have hne := hc.order e hmem
          have k1 := count_tick s.cnt t (.checked [])
          have k2 := count_tick s.cnt t (.matched [])
          dsimp only at k1 k2
          rw [e, List.count_cons, k1, k2, List.count_singleton, List.count_singleton]
          have : (t == Tick.matched []) = false := by simpa using hne
          rw [this]
          refine ⟨by simp, by omega, ?_⟩
          split <;> omega
      obtain ⟨k1, k2, k3⟩ := key
      obtain ⟨s', r, e1, e2, e3⟩ := ih ⟨cnt', pre ++ c' :: post, s.readers⟩ (by omega) hsane'
        (by show (cnt' []).1 ≤ target; omega) (by dsimp only; omega)
      exact ⟨s', SysRun.trans (.step (.refl _) hstep) r, e1, e2.trans k1, e3⟩

/-- The matches of the root can be counted one by one. -/
theorem reach_matched (target : Nat) : ∀ (w : Nat) (s : Sys), s.work ≤ w → (s.cnt []).2 ≤ target →
    target ≤ (s.cnt []).2 + (s.calls.map (fun c => (c.rem E).1.count (.matched []))).sum →
    ∃ s', SysRun E s s' ∧ (s'.cnt []).2 = target ∧ s'.readers = s.readers := by
  intro w
  induction w with
  | zero =>
    intro s hw h1 h2
    by_cases heq : (s.cnt []).2 = target
    · exact ⟨s, .refl _, heq, rfl⟩
    · obtain ⟨pre, c, post, c', cnt', -, -, -, hstep⟩ := pending_step (E := E) (s := s) (t := .matched []) (by omega)
      have := SysStep.work hstep
      omega
  | succ w ih =>
    intro s hw h1 h2
    by_cases heq : (s.cnt []).2 = target
    · exact ⟨s, .refl _, heq, rfl⟩
    · obtain ⟨pre, c, post, c', cnt', he, hmem, hs, hstep⟩ := pending_step (E := E) (s := s) (t := .matched []) (by omega)
      have hwork := SysStep.work hstep
      obtain ⟨-, -, h3⟩ := Call.step_rem E hs
      have hsum : ∀ t, (s.calls.map (fun c => (c.rem E).1.count t)).sum + (c'.rem E).1.count t =
          ((pre ++ c' :: post).map (fun c => (c.rem E).1.count t)).sum + (c.rem E).1.count t := by
        intro t
        rw [he]
        simp only [List.map_append, List.map_cons, List.sum_append, List.sum_cons]
        omega
      have hsum1 := hsum (.matched [])
      have key : (cnt' []).2 + (c'.rem E).1.count (.matched []) =
          (s.cnt []).2 + (c.rem E).1.count (.matched []) ∧ (cnt' []).2 ≤ (s.cnt []).2 + 1 := by
        rcases h3 with ⟨rfl, e⟩ | ⟨t, rfl, e⟩
        · rw [e]; exact ⟨rfl, Nat.le_succ _⟩
        · have k2 := count_tick s.cnt t (.matched [])
          dsimp only at k2
          rw [e, List.count_cons, k2, List.count_singleton]
          refine ⟨by omega, ?_⟩
          split <;> omega
      obtain ⟨k2, k3⟩ := key
      obtain ⟨s', r, e1, e3⟩ := ih ⟨cnt', pre ++ c' :: post, s.readers⟩ (by omega)
        (by show (cnt' []).2 ≤ target; omega) (by dsimp only; omega)
      exact ⟨s', SysRun.trans (.step (.refl _) hstep) r, e1, e3⟩

/-- **C42, exactly.** Let `Match` calls on the documents run concurrently with `Stats` calls. A pair of
numbers can be shown just when each lies between what was counted before and what is counted when all
calls are done; no relation between the two is kept. -/
theorem C42_snapshot_exact (E : Env) (m : Matcher) (ds : List Json) (k : Nat) (hk : 0 < k) (c n : Nat) :
    (∃ s, SysRun E (Sys.start m ds k) s ∧ .done c n ∈ s.readers) ↔
      ((m.counters []).1 ≤ c ∧ c ≤ (m.counters []).1 + ds.countP (fun d => (m.match E (.valid d)).2.answered)) ∧
      (m.counters []).2 ≤ n ∧ n ≤ (m.counters []).2 + ds.countP (fun d => (m.match E (.valid d)).2.yes) := by
  constructor
  · rintro ⟨s, h, hd⟩
    exact (run_range h).2 _ hd
  · rintro ⟨⟨h1, h2⟩, h3, h4⟩
    have hinv0 := sysInv_start (E := E) m ds k
    have c0 := hinv0.counts (.checked [])
    dsimp only at c0
    rw [(sum_answered m ds).1] at c0
    obtain ⟨s1, r1, e1, e2, e3⟩ := reach_checked m.root c _ (Sys.start m ds k) (Nat.le_refl _) (by
      intro x hx
      obtain ⟨d, -, rfl⟩ := List.mem_map.1 hx
      exact List.suffix_refl _) h1 (by rw [c0]; exact h2)
    have hrd : s1.readers = .start :: List.replicate (k - 1) .start := by
      rw [e3]
      obtain ⟨j, rfl⟩ : ∃ j, k = j + 1 := ⟨k - 1, by omega⟩
      rfl
    obtain ⟨cnt1, calls1, rs1⟩ := s1
    dsimp only at e1 e2 hrd
    subst hrd
    have st1 : SysStep E ⟨cnt1, calls1, .start :: List.replicate (k - 1) .start⟩
        ⟨cnt1, calls1, .loadedChecked c :: List.replicate (k - 1) .start⟩ :=
      .reader (pre := []) (by rw [← e1]; rfl)
    have r2 := SysRun.step r1 st1
    have c1 := r2.inv.counts (.matched [])
    dsimp only at c1
    rw [(sum_answered m ds).2] at c1
    have e2' : (cnt1 []).2 = (m.counters []).2 := e2
    obtain ⟨s2, r3, e4, e5⟩ := reach_matched (E := E) n _
      ⟨cnt1, calls1, .loadedChecked c :: List.replicate (k - 1) .start⟩ (Nat.le_refl _)
      (by show (cnt1 []).2 ≤ n; omega) (by dsimp only; omega)
    obtain ⟨cnt2, calls2, rs2⟩ := s2
    dsimp only at e4 e5
    subst e5
    have st2 : SysStep E ⟨cnt2, calls2, .loadedChecked c :: List.replicate (k - 1) .start⟩
        ⟨cnt2, calls2, .done c n :: List.replicate (k - 1) .start⟩ :=
      .reader (pre := []) (by rw [← e4]; rfl)
    exact ⟨_, SysRun.step (SysRun.trans r2 r3) st2, by simp⟩

-- a new matcher, three documents that match: `Stats` may show 0 checks and 3 matches
example (E : Env) : ∃ s, SysRun E (Sys.start ⟨notA E, [], Counters.zero⟩ [.null, .null, .null] 1) s ∧
    .done 0 3 ∈ s.readers := by
  rw [C42_snapshot_exact E _ _ 1 (by decide)]
  refine ⟨⟨Nat.le_refl _, Nat.zero_le _⟩, Nat.zero_le _, ?_⟩
  have : ((⟨notA E, [], Counters.zero⟩ : Matcher).match E (.valid .null)).2 = .result true := rfl
  simp [this, MatchOut.yes]

end Aql
