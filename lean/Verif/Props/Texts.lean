import Verif.Props.Exact
/-!
Comparisons from their text to their answers: what the theorems about trees (C24, C25, C28, C31, C32,
C34, C35) say of a query as it is typed. Everything in the statements is text: the literal typed and the
values in the document.
-/

namespace Aql

open Spec

variable {E : Env}

/-- **C59.** The matcher of a text is a matcher for the tree of its tokens, so every theorem about
matchers of trees (`Ready`) speaks of texts. -/
theorem C59_ready_of_text {c : Cst} {s : Str} (hc : LaidOut E c s) {m : Matcher} {ms : List Msg}
    (h : newMatcher E (utf8 s) = some (.ok (.ok (m, ms)))) : Ready E c.tree m := by
  obtain ⟨hb, hok, hm⟩ := root_of_text hc h
  refine ⟨⟨[], ?_⟩, tree_fromGrammar hc⟩
  rcases h4 : msgRun E (comparisons c.tree) with ⟨ms', _ | e⟩
  · have : ∃ x, newMatcherFrom E [] (.ok c.tree) = .ok (.ok (⟨m.root, [], Counters.zero⟩, x)) := by
      rw [newMatcherFrom_eq, (verdicts_none E c.tree).2 hok, hb, h4]
      exact ⟨_, rfl⟩
    obtain ⟨x, hx⟩ := this
    exact ⟨_, _, hx, rfl⟩
  · rw [h4] at hm; cases hm

/-- `path:op literal` without white space. -/
def cmpText (p o t : Str) : Str := p ++ ':' :: (o ++ t)

theorem cmpText_laid {p o t : Str} {xs : List Str} {op : Op} {v : Val} (hp : Path E p xs) (ho : OpText o op)
    (hl : Lit E [] t v) : LaidOut E (.compare p xs o op [(t, v)]) (cmpText p o t) := by
  have hw : Ws [] := by decide
  refine ⟨[], _, [], hw, hw, .andOr (.notAnd (.cmpNot (.compare (w1 := []) (w2 := []) (w3 := []) hp ho
    (.one hl) hw hw hw))), ?_⟩
  simp [cmpText]

/-- A comparison with one literal of an admissible type, other than a pattern, gets a matcher. -/
theorem cmpText_matcher {p o t : Str} {xs : List Str} {op : Op} {v : Val} (hp : Path E p xs) (ho : OpText o op)
    (hl : Lit E [] t v) (hop : OrderOp op ∧ (Numeric v ∨ typeOf v = .time) ∨ op = .EQ) (hre : typeOf v ≠ .regex) :
    ∃ m ms, newMatcher E (utf8 (cmpText p o t)) = some (.ok (.ok (m, ms))) ∧
      Ready E (.expr op (withoutStars xs) [unplaced v] noPosition) m := by
  have hc := cmpText_laid hp ho hl
  have hok : ExprOk E op [unplaced v] := by
    rcases hop with ⟨hop, hv⟩ | rfl
    · have hv' : typeOf (unplaced v) = .int ∨ typeOf (unplaced v) = .float ∨ typeOf (unplaced v) = .time := by
        rw [unplaced_type]; unfold Numeric at hv; tauto
      rcases hop with rfl | rfl | rfl | rfl <;>
        exact ⟨by simp [ArityOk], by simpa [OperandOk] using hv', by simp, by simp, by simp⟩
    · exact exprOk_single _
  obtain ⟨m, ms, h⟩ := matcher_of_text hc hok (by
    rw [msgRun_none]
    intro n hn
    simp only [Cst.tree, comparisons, List.map_cons, List.map_nil, List.mem_singleton] at hn
    subst hn
    rw [messageVisitorFn, exprMessages_none]
    intro v' hv'
    rw [List.mem_singleton.1 hv']
    cases v <;> first | rfl | exact absurd rfl hre)
  exact ⟨m, ms, h, C59_ready_of_text hc h⟩

/-! ### Numbers -/

/-- The relation of an operator on numbers. -/
def QRel : Op → ℚ → ℚ → Prop
  | .EQ, x, y => x = y
  | .LT, x, y => x < y
  | .LTE, x, y => x ≤ y
  | .GT, x, y => y < x
  | .GTE, x, y => y ≤ x
  | _, _, _ => False

theorem fLt_fin {x y : ℚ} : FLt (.fin x) (.fin y) ↔ x < y := by simp [FLt, place, Before]

theorem fEq_fin {x y : ℚ} : FEq (.fin x) (.fin y) ↔ x = y := by
  simp [FEq, place, eq_comm]

theorem fLe_fin {x y : ℚ} : FLe (.fin x) (.fin y) ↔ x ≤ y := by
  rw [FLe, fLt_fin, fEq_fin, le_iff_lt_or_eq]

/-- The double of a numeric literal is its decimal value, rounded. -/
theorem numLit_of_text {t : Str} {v : Val} {q : ℚ} (hl : Lit E [] t v) (hn : Numeric v) (hq : DecText t q) (c : F64) :
    NumLit (unplaced v) c ↔ ∃ y, RoundsTo q y ∧ c = .fin y := by
  cases hl with
  | float hm ha hb hc hd ht hdec hx =>
    rename_i q' x
    have hqq : q' = q := by
      rw [← decimalValue_iff] at hq hdec; rw [hq] at hdec; exact (Option.some.inj hdec).symm
    subst hqq
    have hr : RoundsTo q' x := by
      rw [roundsTo_iff]
      unfold toF64 at hx
      dsimp only at hx
      split at hx
      · cases hx
      · cases hx; rfl
    constructor
    · intro h; cases h; exact ⟨_, hr, rfl⟩
    · rintro ⟨y, hy, rfl⟩; rw [hy.unique hr]; exact .float
  | int hm ha hb ht hi h1 h2 =>
    rename_i n
    have hqq : (n : ℚ) = q := by
      have := intText_decText hi
      rw [← decimalValue_iff] at hq this; rw [hq] at this; exact (Option.some.inj this).symm
    rw [← hqq]
    exact C28_integer_literal (abs_le.2 ⟨by omega, by omega⟩) c
  | _ => rcases hn with h | h <;> cases h

variable (E) in
/-- **C28, as text.** A comparison with a decimal literal gets a matcher. On a document whose values
under the path are decimal numbers (or strings spelling them) it says yes iff the rounded value of one
of them is in the relation to the rounded literal; values that overflow match nothing. -/
theorem C28_text (p o t : Str) (xs : List Str) (op : Op) (v : Val) (q : ℚ) (hp : Path E p xs) (ho : OpText o op)
    (hop : OrderOp op ∨ op = .EQ) (hl : Lit E [] t v) (hn : Numeric v) (hq : DecText t q) :
    ∃ m ms, newMatcher E (utf8 (cmpText p o t)) = some (.ok (.ok (m, ms))) ∧
      ∀ d, Plain d (withoutStars xs) →
        (∀ s, ScalarUnder E d (withoutStars xs) s → ∃ raw r, (s = .num raw ∨ s = .str raw) ∧ DecText raw r) →
        (Accepts E m d ↔ ∃ s raw r x y, ScalarUnder E d (withoutStars xs) s ∧ (s = .num raw ∨ s = .str raw) ∧
          DecText raw r ∧ RoundsTo r x ∧ |x| < 2 ^ (1024 : ℤ) ∧ RoundsTo q y ∧ QRel op x y) := by
  obtain ⟨m, ms, h, hr⟩ := cmpText_matcher hp ho hl (hop.imp (fun h => ⟨h, .inl hn⟩) id)
    (by rcases hn with h | h <;> rw [h] <;> decide)
  refine ⟨m, ms, h, fun d hd hs => ?_⟩
  have hn' := type_unplaced_num hn
  have rel : Accepts E m d ↔ ∃ s f c, ScalarUnder E d (withoutStars xs) s ∧ NumberOf E s f ∧ NumLit (unplaced v) c ∧
      ((OrderOp op ∧ FRel op f c) ∨ (op = .EQ ∧ FEq f c)) := by
    rcases hop with hop | rfl
    · have : op ≠ .EQ := by rintro rfl; rcases hop with h | h | h | h <;> cases h
      simp only [C28_order hop hn' hr hd, hop, this, true_and, false_and, or_false]
    · have : ¬ OrderOp .EQ := by rintro (h | h | h | h) <;> cases h
      simp only [C28_equal hn' hr hd, this, true_and, false_and, false_or]
  have fin : ∀ x y, ((OrderOp op ∧ FRel op (.fin x) (.fin y)) ∨ (op = .EQ ∧ FEq (.fin x) (.fin y))) ↔ QRel op x y := by
    intro x y
    rcases hop with (rfl | rfl | rfl | rfl) | rfl <;> simp [OrderOp, FRel, QRel, fLt_fin, fLe_fin, fEq_fin]
  rw [rel]
  constructor
  · rintro ⟨s, f, c, h1, h2, h3, h4⟩
    obtain ⟨raw, r, h5, h6⟩ := hs s h1
    obtain ⟨x, hx, hlt, rfl⟩ := (numberOf_decimal h6 s h5 f).1 h2
    obtain ⟨y, hy, rfl⟩ := (numLit_of_text hl hn hq c).1 h3
    exact ⟨s, raw, r, x, y, h1, h5, h6, hx, hlt, hy, (fin x y).1 h4⟩
  · rintro ⟨s, raw, r, x, y, h1, h5, h6, hx, hlt, hy, h4⟩
    exact ⟨s, .fin x, .fin y, h1, (numberOf_decimal h6 s h5 _).2 ⟨x, hx, hlt, rfl⟩,
      (numLit_of_text hl hn hq _).2 ⟨y, hy, rfl⟩, (fin x y).2 h4⟩

/-! ### Dates -/

variable (E) in
/-- **C31, as text.** `path:YYYY-MM-DD` for an existing day, `n` days after 1970-01-01: yes iff a time
under the path lies in that day (within the range of 64-bit nanoseconds). -/
theorem C31_text (p t : Str) (xs : List Str) (x : Date) (n : Int) (hp : Path E p xs) (ht : DateText t x) (hx : x.Valid)
    (hn : DayCount x n) (hf : -(2 ^ 63 : Int) ≤ n * dayNanos ∧ (n + 1) * dayNanos ≤ 2 ^ 63) :
    ∃ m ms, newMatcher E (utf8 (cmpText p [] t)) = some (.ok (.ok (m, ms))) ∧
      ∀ d, Plain d (withoutStars xs) → TimesFit E d (withoutStars xs) →
        (Accepts E m d ↔ ∃ s i, ScalarUnder E d (withoutStars xs) s ∧ InstantOf E s i ∧
          n * dayNanos ≤ i ∧ i < (n + 1) * dayNanos) := by
  obtain ⟨m, ms, h, hr⟩ := cmpText_matcher hp .eq (.day ⟨x, ht, hx, n, hn, rfl⟩) (.inr rfl) (by simp [Val.type])
  refine ⟨m, ms, h, fun d hd hfit => ?_⟩
  have e : (n + 1) * dayNanos = n * dayNanos + dayNanos := by ring
  rw [e] at hf ⊢
  exact C31_day hr hd hf hfit

variable (E) in
/-- **C32, as text (partial).** `path:<t` and so on, with a day or a timestamp that denotes the instant
`i`: yes iff a time under the path is in the relation to it. Missing: times outside the range of 64-bit
nanoseconds, for which the claim is false (`C32_chronological_refuted`). -/
theorem C32_text_partial (p o t : Str) (xs : List Str) (op : Op) (i : Int) (hp : Path E p xs) (ho : OpText o op)
    (hop : OrderOp op) (ht : DayText t i ∨ StampText t i) (hf : Fits i) :
    ∃ m ms, newMatcher E (utf8 (cmpText p o t)) = some (.ok (.ok (m, ms))) ∧
      ∀ d, Plain d (withoutStars xs) → TimesFit E d (withoutStars xs) →
        (Accepts E m d ↔ ∃ s j, ScalarUnder E d (withoutStars xs) s ∧ InstantOf E s j ∧ IRel op j i) := by
  obtain ⟨b, hl⟩ : ∃ b, Lit E [] t (.time t i b (posAt [] t)) := by
    rcases ht with ht | ht
    · exact ⟨_, .day ht⟩
    · exact ⟨_, .stamp ht⟩
  obtain ⟨m, ms, h, hr⟩ := cmpText_matcher hp ho hl (.inl ⟨hop, .inr rfl⟩) (by simp [Val.type])
  exact ⟨m, ms, h, fun d hd hfit => C32_order_partial hop hr hd hf hfit⟩

/-! ### Networks, booleans, presence -/

variable (E) in
/-- **C34, as text.** `path:t` with an address or a block that denotes the set `S` of addresses: yes iff
a text under the path mentions an address or block that shares an address with `S`. -/
theorem C34_text (p t : Str) (xs : List Str) (S : Nat → Prop) (hp : Path E p xs) (ht : Denotes t S) :
    ∃ m ms, newMatcher E (utf8 (cmpText p [] t)) = some (.ok (.ok (m, ms))) ∧
      ∀ d, Plain d (withoutStars xs) →
        (Accepts E m d ↔ ∃ s u, ScalarUnder E d (withoutStars xs) s ∧ TextOf E s u ∧ Mentions u S) := by
  rcases ht with ⟨a, ha, rfl⟩ | ⟨u, a, n, ha, hn, rfl, rfl⟩
  · obtain ⟨m, ms, h, hr⟩ := cmpText_matcher hp .eq (.address ha) (.inr rfl) (by simp [Val.type])
    refine ⟨m, ms, h, fun d hd => ?_⟩
    have : Block a 32 = fun x => x = a := by
      obtain ⟨w, x, y, z, hw, hx, hy, hz, -, rfl⟩ := ha
      funext b
      simp only [Block, eq_iff_iff]
      omega
    rw [← this]
    exact C34_network hr hd
  · obtain ⟨m, ms, h, hr⟩ := cmpText_matcher hp .eq (.block ha hn rfl) (.inr rfl) (by simp [Val.type])
    exact ⟨m, ms, h, fun d hd => C34_network hr hd⟩

/-- `true` and `false`. -/
def boolText (b : Bool) : Str := if b then "true".toList else "false".toList

variable (E) in
/-- **C37, as text.** `path:true` and `path:false`: yes iff that boolean is under the path. -/
theorem C37_bool_text (p : Str) (xs : List Str) (b : Bool) (hp : Path E p xs) :
    ∃ m ms, newMatcher E (utf8 (cmpText p [] (boolText b))) = some (.ok (.ok (m, ms))) ∧
      ∀ d, Plain d (withoutStars xs) → (Accepts E m d ↔ ScalarUnder E d (withoutStars xs) (.bool b)) := by
  obtain ⟨v, hl, hv⟩ : ∃ v, Lit E [] (boolText b) v ∧ ∃ q, v = .bool b q := by
    cases b
    · exact ⟨_, .false_, _, rfl⟩
    · exact ⟨_, .true_, _, rfl⟩
  obtain ⟨q, rfl⟩ := hv
  obtain ⟨m, ms, h, hr⟩ := cmpText_matcher hp .eq hl (.inr rfl) (by simp [Val.type])
  refine ⟨m, ms, h, fun d hd => ?_⟩
  rw [hr.accepts hd]
  simp only [Sat, List.mem_singleton, exists_eq_left, unplaced, EqHolds]
  simp

variable (E) in
/-- **C24, C25, as text.** -/
theorem C24_text (p : Str) (xs : List Str) (hp : Path E p xs) :
    (∃ m ms, newMatcher E (utf8 (p ++ ":exists".toList)) = some (.ok (.ok (m, ms))) ∧
      ∀ d, Plain d (withoutStars xs) → (Accepts E m d ↔ ∃ v, Resolves E d (withoutStars xs) v)) ∧
    ∃ m ms, newMatcher E (utf8 (p ++ ":null".toList)) = some (.ok (.ok (m, ms))) ∧
      ∀ d, Plain d (withoutStars xs) → (Accepts E m d ↔ (∃ v, Resolves E d (withoutStars xs) v) ∧
        ∀ v, Resolves E d (withoutStars xs) v → v = .null) := by
  have hw : Ws [] := by decide
  have one : ∀ o op, NoArgOp o op → ∃ m ms, newMatcher E (utf8 (p ++ ':' :: o)) = some (.ok (.ok (m, ms))) ∧
      Ready E (.expr op (withoutStars xs) [] noPosition) m := by
    intro o op ho
    have hc : LaidOut E (.noArgs p xs o op) (p ++ ':' :: o) :=
      ⟨[], _, [], hw, hw, .andOr (.notAnd (.cmpNot (.noArgs (w1 := []) (w2 := []) hp ho hw hw))), by simp⟩
    obtain ⟨m, ms, h⟩ := matcher_of_text hc (by
      cases ho <;> exact ⟨by simp [ArityOk], by simp, by simp, by simp, by simp⟩) (by
      rw [msgRun_none]
      simp [Cst.tree, comparisons, messageVisitorFn, exprMessages])
    exact ⟨m, ms, h, C59_ready_of_text hc h⟩
  obtain ⟨m, ms, h, hr⟩ := one _ _ .exists_
  obtain ⟨m', ms', h', hr'⟩ := one _ _ .null
  exact ⟨⟨m, ms, h, fun d hd => C24_exists hr hd⟩, m', ms', h', fun d hd => C25_null hr' hd⟩

/-! ### Strings -/

variable (E) in
/-- **C35, as text.** `path:"lit"` with printable ASCII characters: yes iff an instance of the pattern
occurs, ignoring case and between word boundaries, in a text under the path. -/
theorem C35_text (hE : FoldsApart E) (p lit : Str) (xs : List Str) (hp : Path E p xs) (hl : Printable lit)
    (ha : ∀ c ∈ lit, c.toNat < 128) :
    ∃ m ms, newMatcher E (utf8 (cmpText p [] ('"' :: (lit ++ ['"'])))) = some (.ok (.ok (m, ms))) ∧
      ∀ d, Plain d (withoutStars xs) →
        (Accepts E m d ↔ ∃ s t, ScalarUnder E d (withoutStars xs) s ∧ TextOf E s t ∧ Occurs CaseEq True lit t) := by
  obtain ⟨m, ms, h, hr⟩ := cmpText_matcher hp .eq (.string (strBody_printable hl) rfl) (.inr rfl) (by simp [Val.type])
  exact ⟨m, ms, h, fun d hd => C35_wildcards hE ha hr hd⟩

-- hypotheses met: `a:>=1`, `a:1970-01-02`, `a:10.0.0.0/8`
example : Path testEnv "a".toList ["a".toList] ∧ OpText ['>', '='] .GTE ∧ Lit testEnv [] "1".toList oneTok.2 ∧
    Numeric oneTok.2 ∧ DecText "1".toList 1 ∧ cmpText "a".toList ['>', '='] "1".toList = "a:>=1".toList ∧
    answerOf testEnv "a:>=1".toList (.obj [("a".toList, .str "1.0e1".toList)]) = some true ∧
    answerOf testEnv "a:>=1".toList (.obj [("a".toList, .num "0.9".toList)]) = some false :=
  ⟨.one (piece_ascii "a".toList (by decide)), .gte, lit_oneTok, .inl rfl,
    (decimalValue_iff _ _).1 (by decide +kernel), by decide, by decide +kernel, by decide +kernel⟩

example : DateText "1970-01-02".toList ⟨1970, 1, 2⟩ ∧ (⟨1970, 1, 2⟩ : Date).Valid ∧ DayCount ⟨1970, 1, 2⟩ 1 ∧
    answerOf testEnv "a:1970-01-02".toList (.obj [("a".toList, .str "1970-01-02T23:59:59Z".toList)]) = some true ∧
    answerOf testEnv "a:1970-01-02".toList (.obj [("a".toList, .str "1970-01-03T00:00:00Z".toList)]) = some false :=
  ⟨dateText_of "1970".toList "01".toList "02".toList (by unfold AllDigits; decide), by unfold Date.Valid; decide,
    .forward .epoch, by decide +kernel, by decide +kernel⟩

example : Denotes "10.0.0.0/8".toList (Block (10 * 2 ^ 24) 8) :=
  .inr ⟨"10.0.0.0".toList, _, 8, ⟨10, 0, 0, 0, by decide, by decide, by decide, by decide, by decide, rfl⟩, by decide,
    by decide, rfl⟩

end Aql
