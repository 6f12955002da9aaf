import Verif.Spec.PageHints
import Verif.Props.Browser
import Verif.Props.Hints
import Verif.Props.Times
/-!
Property C114: what the page shows about an accepted query, and what its advice is worth.
-/

namespace Aql

open Spec

variable (E : Env)

/-- What the page's visitor says about one operand, if the pattern of a regular expression can be parsed. -/
theorem warnVal_shown (op : Op) (field : List Str) (epos : Pos) (v : Val)
    (h : (warnVal E op field epos v).2 = none) : (warnVal E op field epos v).1 = pageShows E op field epos v := by
  cases v with
  | time sv t d pos => exact (saying_prop _ _ _ Iff.rfl).symm
  | regex sv src pos =>
    have ht := valMessages_told E .EQ field (.regex sv src pos)
    cases hreg : E.reSyntax src with
    | none => simp [warnVal, hreg] at h
    | some reg =>
      simp only [pageShows]
      rw [← ht (by simp [valMessages, hreg])]
      simp only [warnVal, valMessages, hreg, List.append_assoc]
      congr 1
      exact (saying_prop _ _ _ Iff.rfl).symm
  | _ => rfl

theorem warnVals_shown (op : Op) (field : List Str) (epos : Pos) : ∀ vs,
    (warnVals E op field epos vs).2 = none →
      (warnVals E op field epos vs).1 = vs.flatMap (pageShows E op field epos)
  | [], _ => rfl
  | v :: vs, h => by
    simp only [warnVals] at h ⊢
    have hv := warnVal_shown E op field epos v
    rcases hm : warnVal E op field epos v with ⟨ms, _ | e⟩
    · rw [hm] at h hv
      rw [List.flatMap_cons, ← warnVals_shown op field epos vs h, ← hv rfl]
    · rw [hm] at h; cases h

theorem runMsgs_shown : ∀ ns : List Node, (∀ c ∈ ns, ∃ op f vs p, c = .expr op f vs p) →
    (runMsgs (warningFn E) ns).2 = none →
      (runMsgs (warningFn E) ns).1.map onPage = ns.flatMap (shownBy E)
  | [], _, _ => rfl
  | n :: ns, hn, h => by
    obtain ⟨op, f, vs, p, rfl⟩ := hn n (by simp)
    have hv := warnVals_shown E op f p vs
    simp only [runMsgs, warningFn] at h ⊢
    rcases hm : warnVals E op f p vs with ⟨ms, _ | e⟩
    · rw [hm] at h hv
      rw [List.flatMap_cons, ← runMsgs_shown ns (fun c hc => hn c (by simp [hc])) h, shownBy, ← hv rfl]
      simp
    · rw [hm] at h; cases h

/-- **C114.** The messages the page gets about a query it accepts are exactly those its operands call for,
operand by operand, from left to right. -/
theorem C114_messages_exact (query : List UInt8) (n : Node) (ms : List JsMsg)
    (h : pWrap E query = some (.ok (some n, ms))) : ms = (comparisons n).flatMap (shownBy E) := by
  unfold pWrap at h
  rcases hg : grammarOut E (decode query) with _ | out
  · unfold parseAQL parseQuery at h
    rw [hg] at h; cases h
  rw [parseAQL_eq E query out hg] at h
  simp only [Option.map_some, Option.some.injEq] at h
  rcases ha : aqlOut E out with e | ⟨root, ms'⟩
  · rw [ha] at h; cases h
  · rw [ha] at h
    cases h
    obtain ⟨-, -, h1⟩ := aqlOut_ok E ha
    have := runMsgs_shown E (comparisons n) (comparisons_expr n) (by rw [h1])
    rw [h1] at this
    exact this

/-- **C114.** The page gets a tree for exactly the queries that are well-formed and obey the typing rules, and
the tree is that of the query. -/
theorem C114_tree_iff (hre : PatternsParse E) (query : List UInt8) (n : Node) :
    (∃ ms, pWrap E query = some (.ok (some n, ms))) ↔
      grammarOut E (decode query) = some (.ok n) ∧ AllOk E n := by
  have hp : ∀ out, grammarOut E (decode query) = some out → ∀ ms,
      pWrap E query = some (.ok (some n, ms)) ↔ ∃ ms', aqlOut E out = .ok (n, ms') ∧ ms = ms'.map msgConvert := by
    intro out hg ms
    unfold pWrap
    rw [parseAQL_eq E query out hg]
    simp only [Option.map_some, Option.some.injEq]
    rcases aqlOut E out with e | ⟨root, ms'⟩
    · simp
    · simp only [Except.ok.injEq, Prod.mk.injEq, Option.some.injEq]
      constructor
      · rintro ⟨rfl, rfl⟩; exact ⟨ms', ⟨rfl, rfl⟩, rfl⟩
      · rintro ⟨x, ⟨rfl, rfl⟩, rfl⟩; exact ⟨rfl, rfl⟩
  constructor
  · rintro ⟨ms, h⟩
    rcases hg : grammarOut E (decode query) with _ | out
    · unfold pWrap parseAQL parseQuery at h
      rw [hg] at h; cases h
    obtain ⟨ms', h, -⟩ := (hp out hg ms).1 h
    obtain ⟨rfl, h1, -⟩ := aqlOut_ok E h
    exact ⟨rfl, (verdicts_none E n).1 h1⟩
  · rintro ⟨hg, hok⟩
    have hw := warnings_ok E hre hg
    refine ⟨_, (hp _ hg _).2 ⟨(runMsgs (warningFn E) (comparisons n)).1, ?_, rfl⟩⟩
    simp only [aqlOut, (verdicts_none E n).2 hok]
    rcases hm : runMsgs (warningFn E) (comparisons n) with ⟨ms, _ | e⟩
    · rfl
    · rw [hm] at hw; cases hw

/-- **C114.** Every datetime compared with `:` is warned about, short or not. -/
theorem C114_time_warned (query : List UInt8) (n : Node) (ms : List JsMsg)
    (h : pWrap E query = some (.ok (some n, ms))) (f : List Str) (vs : List Val) (p : Pos)
    (hc : .expr .EQ f vs p ∈ comparisons n) (sv : Str) (t : Int) (d : Bool) (q : Pos)
    (hv : .time sv t d q ∈ vs) :
    (⟨.warning, "exact matches on datetime values currently match the time EXACTLY, consider using [:~] or a numeric comparison".toList,
      q.offset, q.offset + q.len⟩ : JsMsg) ∈ ms := by
  rw [C114_messages_exact E query n ms h]
  refine List.mem_flatMap.2 ⟨_, hc, List.mem_map.2 ⟨⟨.warning, q, _⟩, List.mem_flatMap.2 ⟨_, hv, ?_⟩, rfl⟩⟩
  simp only [pageShows, saying, if_true]
  exact List.mem_singleton.2 rfl

/-- **C114 (refuted).** The first thing that warning recommends is refused: no query in which a datetime is
compared with `:~` is accepted, by the page or by the matcher. -/
theorem C114_time_advice_refuted (hre : PatternsParse E) (query : List UInt8) (n : Node) (f : List Str)
    (vs : List Val) (p : Pos) (hn : grammarOut E (decode query) = some (.ok n))
    (hc : .expr .SIM f vs p ∈ comparisons n) (sv : Str) (t : Int) (d : Bool) (q : Pos)
    (hv : .time sv t d q ∈ vs) :
    (∃ m, pWrap E query = some (.ok (none, [m])) ∧ m.type = .error) ∧
      ∀ text m msgs, newMatcherFrom E text (.ok n) ≠ .ok (.ok (m, msgs)) := by
  have hno : ¬ AllOk E n := by
    intro h
    have := ((allOk_iff E n).1 h _ hc).types _ hv
    simp [OperandOk, typeOf] at this
  constructor
  · obtain ⟨⟨t', ms⟩, h1, h2⟩ := C65_tree_or_error E query
    cases t' with
    | none =>
      obtain ⟨m, rfl, hm⟩ := h2
      exact ⟨m, h1, hm⟩
    | some n' =>
      obtain ⟨h3, h4⟩ := (C114_tree_iff E hre query n').1 ⟨ms, h1⟩
      rw [hn] at h3
      cases h3
      exact absurd h4 hno
  · intro text m msgs h
    exact hno (newMatcherFrom_ok E h).1

-- both queries: the first is warned about, the second refused
example : pageSpans testEnv "a:2020-01-02".toList = some [(.warning, 2, 12)] ∧
    pageSpans testEnv "a:~2020-01-02".toList = some [(.error, 3, 13)] := by decide +kernel

/-- **C114 (refuted).** What the warning says is wrong for short dates: `a:2020-01-02` is warned about, but
matches a document with a time twelve hours later. -/
theorem C114_short_date_refuted (hk : E.unescape "a".toList = some "a".toList)
    (hu : E.unescape "2020-01-02T12:00:00Z".toList = some "2020-01-02T12:00:00Z".toList)
    (hd : E.dateparse "2020-01-02T12:00:00Z".toList = some 1577966400000000000) :
    ∃ t m, newTimeVal "2020-01-02".toList noPosition = some (.time "2020-01-02".toList t true noPosition) ∧
      pageShows E .EQ ["a".toList] noPosition (.time "2020-01-02".toList t true noPosition) ≠ [] ∧
      Ready E (.expr .EQ ["a".toList] [.time "2020-01-02".toList t true noPosition] noPosition) m ∧
      Accepts E m (.obj [("a".toList, .str "2020-01-02T12:00:00Z".toList)]) ∧
      ¬ InstantOf E (.str "2020-01-02T12:00:00Z".toList) t := by
  obtain ⟨m, hm⟩ := ready_time E .EQ (.inr rfl) ["a".toList] 1577923200000000000 true
    "2020-01-02".toList (by decide +kernel)
  have hi : ∀ i, InstantOf E (.str "2020-01-02T12:00:00Z".toList) i → i = 1577966400000000000 := by
    rintro i ⟨txt, h1, h2⟩
    cases h1 with
    | str h1 =>
      rw [hu] at h1; cases h1
      rw [hd] at h2; cases h2
      rfl
  refine ⟨_, m, by decide +kernel, by simp [pageShows, saying], hm, ?_, fun h => by cases hi _ h⟩
  rw [C31_day hm plain_single (by decide) ?_]
  · exact ⟨_, _, (single_str hk _ _).2 rfl, ⟨_, .str hu, hd⟩, by decide, by decide⟩
  · intro s i hs h
    rw [single_str hk] at hs
    subst hs
    rw [hi i h]
    exact ⟨by decide, by decide⟩

example : testEnv.unescape "a".toList = some "a".toList ∧
    testEnv.unescape "2020-01-02T12:00:00Z".toList = some "2020-01-02T12:00:00Z".toList ∧
    testEnv.dateparse "2020-01-02T12:00:00Z".toList = some 1577966400000000000 := by decide +kernel

/-- **C114 (partial).** The matcher and the page warn about the same datetimes, except that the matcher leaves
out short dates. Missing from the full claim, that both say the same of a query: short dates (above), `~` with
strings, and the texts. -/
theorem C114_same_times_partial (op : Op) (f : List Str) (sv : Str) (t : Int) (d : Bool) (p q : Pos) :
    told E op f (.time sv t d q) ≠ [] ↔ pageShows E op f p (.time sv t d q) ≠ [] ∧ d = false := by
  simp only [told, pageShows, saying]
  by_cases h : op = .EQ <;> cases d <;> simp [h]

/-- **C114 (refuted).** The fuzzy match that is recommended for case-insensitive patterns outside ASCII is
warned about by the matcher itself, once for every string. -/
theorem C114_fuzzy_advice_refuted (query : Str) (root : Node) (m : Matcher) (msgs : List Msg)
    (h : newMatcherFrom E query (.ok root) = .ok (.ok (m, msgs))) (f : List Str) (a b : Str) (p q r : Pos)
    (hc : .expr .SIM f [.str a p, .str b q] r ∈ comparisons root) :
    (⟨.warning, p, "Similarity comparison is deprecated for string values. Please use the normal comparison operator - field:\"<string>\"".toList⟩ : Msg) ∈ msgs ∧
    (⟨.warning, q, "Similarity comparison is deprecated for string values. Please use the normal comparison operator - field:\"<string>\"".toList⟩ : Msg) ∈ msgs := by
  rw [C88_messages_exact E query root m msgs h]
  constructor <;> refine List.mem_flatMap.2 ⟨_, hc, ?_⟩ <;> simp [toldBy, told, saying]

end Aql
