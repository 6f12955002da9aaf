import Verif.Proofs.Stats
import Verif.Props.Matching
/-!
Properties C39–C43: repeated and concurrent use of one matcher, and its statistics.
-/

namespace Aql

open Spec

variable (E : Env)

/-- The matcher after a sequence of `Match` calls. -/
def Matcher.after (m : Matcher) (ds : List Doc) : Matcher := ds.foldl (fun m d => (m.match E d).1) m

/-- The answers of a sequence of `Match` calls. -/
def Matcher.answers (m : Matcher) : List Doc → List MatchOut
  | [] => []
  | d :: ds => (m.match E d).2 :: Matcher.answers (m.match E d).1 ds

theorem match_fst (m : Matcher) (d : Doc) :
    (m.match E d).1.root = m.root ∧ (m.match E d).1.query = m.query := by
  cases d with
  | invalid => exact ⟨rfl, rfl⟩
  | valid j =>
    dsimp only [Matcher.match]
    rcases m.root.result E j [] with ⟨ts, e | b⟩ <;> exact ⟨rfl, rfl⟩

theorem match_snd {m m' : Matcher} (h : m.root = m'.root) (d : Doc) :
    (m.match E d).2 = (m'.match E d).2 := by
  cases d with
  | invalid => rfl
  | valid j =>
    dsimp only [Matcher.match]
    rw [h]
    rcases m'.root.result E j [] with ⟨ts, e | b⟩ <;> rfl

theorem match_valid_snd {E : Env} (m : Matcher) (d : Json) :
    (m.match E (.valid d)).2 = (match (m.root.result E d []).2 with
      | .ok b => .result b
      | .error p => .panic p) := by
  dsimp only [Matcher.match]
  rcases m.root.result E d [] with ⟨ts, e | b⟩ <;> rfl

theorem match_valid_counters {E : Env} (m : Matcher) (d : Json) :
    (m.match E (.valid d)).1.counters = m.counters.ticks (m.root.result E d []).1 := by
  dsimp only [Matcher.match]
  rcases m.root.result E d [] with ⟨ts, e | b⟩ <;> rfl

theorem after_root (m : Matcher) (ds : List Doc) : (m.after E ds).root = m.root := by
  induction ds generalizing m with
  | nil => rfl
  | cons d ds ih => exact (ih _).trans (match_fst E m d).1

/-- **C39.** Earlier calls have no influence on the answer of a call. -/
theorem C39_history (m : Matcher) (earlier : List Doc) (d : Doc) :
    ((m.after E earlier).match E d).2 = (m.match E d).2 :=
  match_snd E (after_root E m earlier) d

/-- **C39.** The answers to a sequence of calls are the answers of a fresh matcher to each. -/
theorem C39_answers (m : Matcher) (ds : List Doc) :
    m.answers E ds = ds.map (fun d => (m.match E d).2) := by
  induction ds generalizing m with
  | nil => rfl
  | cons d ds ih =>
    simp only [Matcher.answers, List.map_cons, ih]
    congr 1
    exact List.map_congr_left fun x _ => match_snd E (match_fst E m d).1 x

/-- **C39.** Bytes that are not JSON give the error and change nothing, statistics included; and only
they give it. -/
theorem C39_invalid (m : Matcher) (d : Doc) :
    ((m.match E d).2 = .invalidJSON ↔ d = .invalid) ∧ m.match E .invalid = (m, .invalidJSON) := by
  refine ⟨?_, rfl⟩
  cases d with
  | invalid => exact ⟨fun _ => rfl, fun _ => rfl⟩
  | valid j =>
    dsimp only [Matcher.match]
    rcases m.root.result E j [] with ⟨ts, e | b⟩ <;> simp

/-- **C39.** A call never changes the query or the compiled tree. -/
theorem C39_query (m : Matcher) (ds : List Doc) :
    (m.after E ds).getQuery = m.getQuery ∧ (m.after E ds).root = m.root := by
  refine ⟨?_, after_root E m ds⟩
  induction ds generalizing m with
  | nil => rfl
  | cons d ds ih => exact (ih _).trans (match_fst E m d).2

/-! ## C40 -/

/-- What the statistics call the root of a query. -/
def rootName : Node → Str
  | .and _ _ => "AND".toList
  | .or _ _ => "OR".toList
  | .not _ => "NOT".toList
  | .expr op f vs _ => friendlyString E op f vs
  | .subdoc _ _ => []

theorem build_name {root : Node} {b : BoolNode} (h : build E root = .ok b) :
    b.name = rootName E root ∧ (b = .nil → ∃ f e, root = .subdoc f e) := by
  cases root with
  | and l r =>
    rw [build] at h
    rcases hl : build E l with _ | l' <;> rw [hl] at h
    · cases h
    · dsimp only at h
      rcases hr : build E r with _ | r' <;> rw [hr] at h <;> cases h
      exact ⟨rfl, fun e => by cases e⟩
  | or l r =>
    rw [build] at h
    rcases hl : build E l with _ | l' <;> rw [hl] at h
    · cases h
    · dsimp only at h
      rcases hr : build E r with _ | r' <;> rw [hr] at h <;> cases h
      exact ⟨rfl, fun e => by cases e⟩
  | not e =>
    rw [build] at h
    rcases hl : build E e with _ | l' <;> rw [hl] at h <;> cases h
    exact ⟨rfl, fun e => by cases e⟩
  | subdoc f e =>
    rw [build] at h; cases h; exact ⟨rfl, fun _ => ⟨f, e, rfl⟩⟩
  | expr op f vs pos =>
    rw [build] at h
    rcases hl : buildExprs E op vs with _ | l' <;> rw [hl] at h <;> cases h
    exact ⟨rfl, fun e => by cases e⟩

/-- The outcome is an answer. -/
def MatchOut.answered : MatchOut → Bool
  | .result _ => true
  | _ => false

/-- The outcome is the answer "matched". -/
def MatchOut.yes : MatchOut → Bool
  | .result b => b
  | _ => false

theorem after_counts (m : Matcher) (ds : List Doc) :
    (m.after E ds).counters [] = ((m.counters []).1 + (m.answers E ds).countP MatchOut.answered,
      (m.counters []).2 + (m.answers E ds).countP MatchOut.yes) := by
  induction ds generalizing m with
  | nil => rfl
  | cons d ds ih =>
    rw [show m.after E (d :: ds) = (m.match E d).1.after E ds from rfl, ih]
    simp only [Matcher.answers, List.countP_cons]
    have : (m.match E d).1.counters [] = ((m.counters []).1 + (if (m.match E d).2.answered then 1 else 0),
        (m.counters []).2 + (if (m.match E d).2.yes then 1 else 0)) := by
      cases d with
      | invalid => rfl
      | valid j =>
        have hc := count_self E m.root j []
        rw [match_valid_counters, match_valid_snd, ticks_apply, hc.1, hc.2]
        rcases (m.root.result E j []).2 with e | _ | _ <;> rfl
    rw [this]
    ext <;> simp <;> omega

variable {E}

/-- **C40.** After any sequence of calls on a new matcher, the statistics carry the name of the root,
the number of calls that returned an answer and the number that answered "matched". -/
theorem C40_root_statistics {q : Str} {root : Node} {m : Matcher} {msgs : List Msg}
    (h : newMatcherFrom E q (.ok root) = .ok (.ok (m, msgs))) (hg : FromGrammar root)
    (ds : List Doc) :
    (m.after E ds).stats = .ok (.mk (rootName E root)
      (ds.countP fun d => (m.match E d).2.answered) (ds.countP fun d => (m.match E d).2.yes) []) := by
  have hb := (newMatcherFrom_ok E h).2
  have hz : m.counters [] = (0, 0) := by
    unfold newMatcherFrom at h
    split at h
    · cases h
    · cases h
    · split at h
      · cases h
      · cases h; rfl
  obtain ⟨hn, hnil⟩ := build_name E hb
  have hroot := after_root E m ds
  have hc := after_counts E m ds
  rw [hz, C39_answers, List.countP_map, List.countP_map] at hc
  unfold Matcher.stats
  have hne : (m.after E ds).root ≠ .nil := by
    rw [hroot]
    intro e
    obtain ⟨f, e, rfl⟩ := hnil e
    exact hg.1
  split
  · rename_i e; exact absurd e hne
  · rw [hc, hroot, hn]
    simp only [toStatsNode, Nat.zero_add]
    rfl

/-- **C40.** When the query has no subscript on a document of the sequence, every call on valid JSON
is counted. -/
theorem C40_every_call_counts {root : Node} {m : Matcher} (h : Ready E root m) (ds : List Doc)
    (hp : ∀ j, Doc.valid j ∈ ds → PathsIn (Plain j) root) :
    (ds.countP fun d => (m.match E d).2.answered) =
      ds.countP (fun d => match d with | .valid _ => true | .invalid => false) := by
  apply List.countP_congr
  intro d hd
  cases d with
  | invalid => simp [Matcher.match, MatchOut.answered]
  | valid j =>
    obtain ⟨⟨b, hb⟩, _⟩ := h.answer (hp j hd)
    rw [hb]
    simp [MatchOut.answered]

-- a new matcher exists for the AND query of two comparisons
example : ∃ q m msgs, newMatcherFrom testEnv q (.ok (.and (.expr .EXS ["a".toList] [] noPosition)
    (.expr .NUL ["b".toList] [] noPosition))) = .ok (.ok (m, msgs)) ∧
    ((m.after testEnv [.invalid, .valid .null]).stats).toOption ≠ none := by
  refine ⟨[], _, _, rfl, ?_⟩
  decide +kernel

/-! ## C41 -/

/-- What is known of a system that started as `Sys.start m ds k`. -/
structure SysInv (E : Env) (m : Matcher) (ds : List Json) (s : Sys) : Prop where
  rems : s.calls.map (fun c => (c.rem E).2) = ds.map (fun d => (m.root.result E d []).2)
  counts : ∀ t : Tick, (match t with | .checked a => (s.cnt a).1 | .matched a => (s.cnt a).2) +
      (s.calls.map (fun c => (c.rem E).1.count t)).sum =
    (match t with | .checked a => (m.counters a).1 | .matched a => (m.counters a).2) +
      (ds.map (fun d => (m.root.result E d []).1.count t)).sum
  halves : (∀ a, (m.counters a).2 ≤ (m.counters a).1) →
    ∀ a, (s.cnt a).2 + (s.calls.map (fun c => c.half a)).sum ≤ (s.cnt a).1

theorem sysInv_start (m : Matcher) (ds : List Json) (k : Nat) : SysInv E m ds (Sys.start m ds k) where
  rems := by
    simp only [Sys.start, List.map_map]
    rfl
  counts := by
    intro t
    simp only [Sys.start, List.map_map]
    rfl
  halves := by
    intro h a
    have : ((Sys.start m ds k).calls.map (fun c => c.half a)).sum = 0 := by
      simp only [Sys.start, List.map_map]
      apply List.sum_eq_zero
      intro x hx
      obtain ⟨d, _, rfl⟩ := List.mem_map.1 hx
      rfl
    rw [this]
    exact h a

theorem count_tick (cnt : Counters) (t u : Tick) :
    (match u with | .checked a => (cnt.tick t a).1 | .matched a => (cnt.tick t a).2) =
    (match u with | .checked a => (cnt a).1 | .matched a => (cnt a).2) + [t].count u := by
  have := ticks_apply [t] cnt
  cases u with
  | checked a => exact congrArg Prod.fst (this a)
  | matched a => exact congrArg Prod.snd (this a)

theorem SysInv.step {m : Matcher} {ds : List Json} {s s' : Sys} (h : SysInv E m ds s)
    (hs : SysStep E s s') : SysInv E m ds s' := by
  cases hs with
  | reader _ => exact ⟨h.rems, h.counts, h.halves⟩
  | @call cnt cnt' pre c c' post rs hs =>
    obtain ⟨_, h2, h3⟩ := Call.step_rem E hs
    refine ⟨?_, ?_, ?_⟩
    · rw [← h.rems]; simp [h2]
    · intro t
      rw [← h.counts t]
      simp only [List.map_append, List.map_cons, List.sum_append, List.sum_cons]
      rcases h3 with ⟨rfl, e⟩ | ⟨u, rfl, e⟩
      · rw [e]
      · rw [e, count_tick, List.count_cons (l := (c'.rem E).1), List.count_singleton]
        omega
    · intro h0 a
      have h1 := h.halves h0 a
      have h4 := Call.step_half E hs a
      simp only [List.map_append, List.map_cons, List.sum_append, List.sum_cons] at h1 ⊢
      omega

theorem SysRun.inv {m : Matcher} {ds : List Json} {k : Nat} {s : Sys}
    (h : SysRun E (Sys.start m ds k) s) : SysInv E m ds s := by
  generalize hs0 : Sys.start m ds k = s0 at h
  induction h with
  | refl => subst hs0; exact sysInv_start m ds k
  | step _ hs ih => exact SysInv.step ih hs

theorem after_counters (m : Matcher) (ds : List Json) (t : Tick) :
    (match t with
      | .checked a => ((m.after E (ds.map .valid)).counters a).1
      | .matched a => ((m.after E (ds.map .valid)).counters a).2) =
    (match t with | .checked a => (m.counters a).1 | .matched a => (m.counters a).2) +
      (ds.map (fun d => (m.root.result E d []).1.count t)).sum := by
  induction ds generalizing m with
  | nil => rfl
  | cons d ds ih =>
    simp only [List.map_cons, List.sum_cons]
    have h1 := ih (m.match E (.valid d)).1
    rw [(match_fst E m (.valid d)).1] at h1
    have h2 : ∀ a, (m.match E (.valid d)).1.counters a = _ := fun a =>
      (congrFun (match_valid_counters m d) a).trans (ticks_apply _ _ a)
    have h3 : m.after E (.valid d :: ds.map .valid) = (m.match E (.valid d)).1.after E (ds.map .valid) := rfl
    cases t with
    | checked a => simp only [h3, h2] at h1 ⊢; omega
    | matched a => simp only [h3, h2] at h1 ⊢; omega

/-- **C41.** At any moment of any concurrent execution, a call that has finished has returned what a
lone call on its document returns. -/
theorem C41_each_call {m : Matcher} {ds : List Json} {k : Nat} {s : Sys}
    (h : SysRun E (Sys.start m ds k) s) {i : Nat} {c : Call} {d : Json} {o : MatchOut}
    (hc : s.calls[i]? = some c) (hd : ds[i]? = some d) (ho : c.outcome = some o) :
    o = (m.match E (.valid d)).2 := by
  have h1 := h.inv.rems
  have h2 : (s.calls.map (fun c => (c.rem E).2))[i]? = (ds.map (fun d => (m.root.result E d []).2))[i]? := by
    rw [h1]
  rw [List.getElem?_map, List.getElem?_map, hc, hd] at h2
  simp only [Option.map_some, Option.some.injEq] at h2
  have h3 := (Call.stuck E (Call.outcome_stuck E ho Counters.zero)).2
  rw [ho, h2] at h3
  rw [match_valid_snd]
  exact Option.some.inj h3

/-- **C41.** When all calls have finished, however they were interleaved, the counters are those of
any sequential order of the same calls. -/
theorem C41_final_counters {m : Matcher} {ds : List Json} {k : Nat} {s : Sys}
    (h : SysRun E (Sys.start m ds k) s) (hfin : ∀ c ∈ s.calls, c.outcome ≠ none)
    {order : List Json} (ho : order.Perm ds) :
    s.cnt = (m.after E (order.map .valid)).counters := by
  have key : ∀ t : Tick, (match t with | .checked a => (s.cnt a).1 | .matched a => (s.cnt a).2) =
      (match t with
      | .checked a => ((m.after E (order.map .valid)).counters a).1
      | .matched a => ((m.after E (order.map .valid)).counters a).2) := by
    intro t
    have h1 := h.inv.counts t
    have h2 : (s.calls.map (fun c => (c.rem E).1.count t)).sum = 0 := by
      apply List.sum_eq_zero
      intro x hx
      obtain ⟨c, hc, rfl⟩ := List.mem_map.1 hx
      cases e : c.outcome with
      | none => exact absurd e (hfin c hc)
      | some o =>
        rw [(Call.stuck E (Call.outcome_stuck E e Counters.zero)).1]
        rfl
    have h3 := after_counters (E := E) m order t
    have h4 : (order.map (fun d => (m.root.result E d []).1.count t)).sum =
      (ds.map (fun d => (m.root.result E d []).1.count t)).sum := (ho.map _).sum_nat
    rw [h2, Nat.add_zero] at h1
    rw [h1, h3, h4]
  funext a
  exact Prod.ext (key (.checked a)) (key (.matched a))

/-- Work left in a system. -/
def Sys.work (s : Sys) : Nat :=
  (s.calls.map Call.work).sum + (s.readers.map (fun r => match r with
    | .start => 2
    | .loadedChecked _ => 1
    | .done _ _ => 0)).sum

theorem SysStep.work {s s' : Sys} (h : SysStep E s s') : s'.work < s.work := by
  cases h with
  | call hs =>
    have := Call.step_work E hs
    simp only [Sys.work, List.map_append, List.map_cons, List.sum_append, List.sum_cons]
    omega
  | @reader cnt cs pre r r' post hs =>
    cases r <;> simp only [Reader.step, Option.some.injEq, reduceCtorEq] at hs <;> subst hs <;>
      simp [Sys.work, List.sum_append]

/-- **C41.** No schedule runs forever, and the goroutines only stop when every call has finished. -/
theorem C41_progress (E : Env) : WellFounded (fun s' s : Sys => SysStep E s s') ∧
    ∀ s : Sys, (∀ s', ¬ SysStep E s s') → ∀ c ∈ s.calls, c.outcome ≠ none := by
  constructor
  · exact Subrelation.wf (fun h => SysStep.work h) (measure Sys.work).wf
  · intro s hs c hc
    obtain ⟨pre, post, e⟩ := List.append_of_mem hc
    obtain ⟨cnt, calls, rs⟩ := s
    dsimp only at e hc
    subst e
    have : c.step E cnt = none := by
      cases h : c.step E cnt with
      | none => rfl
      | some p =>
        obtain ⟨c', cnt'⟩ := p
        exact absurd (SysStep.call h) (hs _)
    rw [(Call.stuck E this).2]
    simp

/-! ## C42 -/

/-- **C42.** The counters themselves never show more matches than checks, at any moment of any
concurrent execution and for every node. -/
theorem C42_stored {m : Matcher} {ds : List Json} {k : Nat} {s : Sys}
    (h : SysRun E (Sys.start m ds k) s) (h0 : ∀ a, (m.counters a).2 ≤ (m.counters a).1) (a : Addr) :
    (s.cnt a).2 ≤ (s.cnt a).1 := by
  have := h.inv.halves h0 a
  omega

/-- The query `!(f exists)` compiled. -/
def notA (E : Env) : BoolNode := .not (.expr ["a".toList] [.exists_]
  (friendlyString E .EXS ["a".toList] []))

theorem notA_compiles (E : Env) : ∃ msgs, newMatcherFrom E []
    (.ok (.not (.expr .EXS ["a".toList] [] noPosition))) = .ok (.ok (⟨notA E, [], Counters.zero⟩, msgs)) :=
  ⟨_, rfl⟩

/-- **C42, refuted.** A snapshot can show more matches than checks: one `Match` runs between the two
loads of `Stats`. -/
theorem C42_snapshot_refuted (E : Env) : ∃ root q m msgs,
    newMatcherFrom E q (.ok root) = .ok (.ok (m, msgs)) ∧
    ∃ ds s c k, SysRun E (Sys.start m ds 1) s ∧ Reader.done c k ∈ s.readers ∧ c < k := by
  obtain ⟨msgs, hm⟩ := notA_compiles E
  refine ⟨_, [], ⟨notA E, [], Counters.zero⟩, msgs, hm, [.null], ?_⟩
  have call : ∀ {s0 : Sys} {cnt cnt' : Counters} {c c' : Call} {rs : List Reader},
      c.step E cnt = some (c', cnt') → SysRun E s0 ⟨cnt, [c], rs⟩ → SysRun E s0 ⟨cnt', [c'], rs⟩ :=
    fun h r => .step r (.call (pre := []) (post := []) h)
  have read : ∀ {s0 : Sys} {cnt : Counters} {cs : List Call} {r r' : Reader},
      r.step cnt = some r' → SysRun E s0 ⟨cnt, cs, [r]⟩ → SysRun E s0 ⟨cnt, cs, [r']⟩ :=
    fun h r => .step r (.reader (pre := []) (post := []) h)
  have r0 : SysRun E (Sys.start ⟨notA E, [], Counters.zero⟩ [.null] 1)
      ⟨Counters.zero, [Call.start (notA E) .null], [.start]⟩ := .refl _
  have r1 := read (r' := .loadedChecked 0) rfl r0
  have r2 := call (c' := ⟨.null, .eval (.expr ["a".toList] [.exists_] _) [false], [.notK []]⟩) rfl r1
  have r3 := call (c' := ⟨.null, .incChecked [false] false, [.notK []]⟩) rfl r2
  have r4 := call (c' := ⟨.null, .ret false, [.notK []]⟩) rfl r3
  have r5 := call (c' := ⟨.null, .incChecked [] true, []⟩) rfl r4
  have r6 := call (c' := ⟨.null, .incMatched [], []⟩) rfl r5
  have r7 := call (c' := ⟨.null, .ret true, []⟩) rfl r6
  exact ⟨_, 0, 1, read (r' := .done 0 1) rfl r7, List.mem_singleton.2 rfl, by decide⟩

theorem quiet_run {s u : Sys} (h : SysRun E s u) (hfin : ∀ c ∈ s.calls, c.outcome ≠ none) :
    u.cnt = s.cnt ∧ u.calls = s.calls ∧ u.readers.length = s.readers.length ∧
    ∀ i : Nat, s.readers[i]? = some Reader.start → u.readers[i]? = some Reader.start ∨
      u.readers[i]? = some (Reader.loadedChecked (s.cnt []).1) ∨
      u.readers[i]? = some (Reader.done (s.cnt []).1 (s.cnt []).2) := by
  induction h with
  | refl => exact ⟨rfl, rfl, rfl, fun i h => .inl h⟩
  | step _ hs ih =>
    obtain ⟨h1, h2, h3, h4⟩ := ih
    cases hs with
    | @call cnt cnt' pre c c' post rs hs =>
      exfalso
      have hc : c.outcome ≠ none := hfin c (by rw [← h2]; simp)
      cases e : c.outcome with
      | none => exact hc e
      | some o => rw [Call.outcome_stuck E e] at hs; cases hs
    | @reader cnt cs pre r r' post hs =>
      dsimp only at h1 h2 h3 h4 ⊢
      refine ⟨h1, h2, by simpa using h3, fun i hi => ?_⟩
      have h5 := h4 i hi
      by_cases e : i = pre.length
      · subst e
        simp only [List.getElem?_append_right (Nat.le_refl _), Nat.sub_self,
          List.getElem?_cons_zero, Option.some.injEq] at h5 ⊢
        rcases h5 with rfl | rfl | rfl <;> simp only [Reader.step, Option.some.injEq, reduceCtorEq] at hs
        · rw [h1] at hs; exact .inr (.inl hs.symm)
        · rw [h1] at hs; exact .inr (.inr hs.symm)
      · have : ∀ x : Reader, (pre ++ x :: post)[i]? = (pre ++ r :: post)[i]? := by
          intro x
          rcases Nat.lt_or_ge i pre.length with hlt | hge
          · rw [List.getElem?_append_left hlt, List.getElem?_append_left hlt]
          · rw [List.getElem?_append_right hge, List.getElem?_append_right hge]
            obtain ⟨j, hj⟩ : ∃ j, i - pre.length = j + 1 := ⟨i - pre.length - 1, by omega⟩
            rw [hj]; rfl
        rw [this]
        exact h5

/-- **C42, the part that holds.** `Stats` called when no `Match` is in progress never shows more
matches than checks. Missing: calls in progress, where the claim is false
(`C42_snapshot_refuted`). -/
theorem C42_snapshot_partial {m : Matcher} {ds : List Json} {k : Nat} {s u : Sys}
    (h0 : ∀ a, (m.counters a).2 ≤ (m.counters a).1)
    (h : SysRun E (Sys.start m ds k) s) (hfin : ∀ c ∈ s.calls, c.outcome ≠ none)
    {i : Nat} (hi : s.readers[i]? = some .start) (hu : SysRun E s u) {c n : Nat}
    (hd : u.readers[i]? = some (.done c n)) : n ≤ c := by
  obtain ⟨_, _, _, h4⟩ := quiet_run hu hfin
  have := C42_stored h h0 []
  rcases h4 i hi with h5 | h5 | h5 <;> rw [hd] at h5 <;> cases h5
  exact this

/-- **C42.** Statistics read after sequential use never show more matches than checks. -/
theorem C42_sequential {q : Str} {root : Node} {m : Matcher} {msgs : List Msg}
    (h : newMatcherFrom E q (.ok root) = .ok (.ok (m, msgs))) (hg : FromGrammar root)
    (ds : List Doc) {name : Str} {c k : Nat} {ch : List MatchStats}
    (hs : (m.after E ds).stats = .ok (.mk name c k ch)) : k ≤ c := by
  rw [C40_root_statistics h hg] at hs
  cases hs
  apply List.countP_mono_left
  intro d _ hy
  cases e : (m.match E d).2 <;> rw [e] at hy <;> first | rfl | cases hy

/-! ## C43 -/

/-- **C43, refuted.** The statistics of a query with two operands have no children: for every
query and every history the list is empty. -/
theorem C43_children_refuted {m : Matcher} {name : Str} {c k : Nat} {ch : List MatchStats}
    (hs : m.stats = .ok (.mk name c k ch)) : ch = [] := by
  unfold Matcher.stats at hs
  split at hs
  · cases hs
  · cases hs; rfl

-- the hypothesis is met by a query with two operands
example : ∃ q m msgs, newMatcherFrom testEnv q (.ok (.and (.expr .EXS ["a".toList] [] noPosition)
    (.expr .NUL ["b".toList] [] noPosition))) = .ok (.ok (m, msgs)) ∧
    m.stats = .ok (.mk "AND".toList 0 0 []) :=
  ⟨[], _, _, rfl, rfl⟩

end Aql
