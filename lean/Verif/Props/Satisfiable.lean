import Verif.Proofs.Satisfiable
import Verif.Props.Spelling
import Verif.Props.Times
/-!
Properties C105 and C106: which queries some document matches (nodes.go, json_values.go:84-112).
-/

namespace Aql

open Spec

variable {E : Env} {root : Node} {m : Matcher}

/-! ### C105 -/

theorem accepts_obj (h : Ready E root m) (hp : PathsIn (· ≠ []) root) (ms : List (Str × Json)) :
    Accepts E m (.obj ms) ↔ Sat E (.obj ms) root :=
  h.accepts (Spec.PathsIn.imp (fun _ => plain_object) hp)

theorem holdable_iff {op : Op} {f : List Str} {vs : List Val} {pos : Pos} (hf : f ≠ [])
    (h : ∃ me, Ready E (.expr op f vs pos) me) :
    Holdable E (.expr op f vs pos) ↔
      ∃ me ms, Ready E (.expr op f vs pos) me ∧ Accepts E me (.obj ms) := by
  constructor
  · rintro ⟨ms, hs⟩
    obtain ⟨me, hr⟩ := h
    exact ⟨me, ms, hr, (accepts_obj hr hf ms).2 hs⟩
  · rintro ⟨me, ms, hr, ha⟩
    exact ⟨ms, (accepts_obj hr hf ms).1 ha⟩

/-- Of a query without `null` in which no comparison is negated, some object is matched exactly if the query holds of
its comparisons' possibilities. -/
theorem holdable_judged (hsp : Spellable E) (hp : PathsIn (· ≠ []) root) (hpol : Polar true root) :
    Holdable E root ↔ Judged (Holdable E) root := by
  constructor
  · rintro ⟨ms, hs⟩
    exact sat_judged.1 hpol hs
  · intro hj
    obtain ⟨sp, hsp⟩ := Classical.axiomOfChoice hsp
    obtain ⟨goals, h1, h2⟩ := (judged_goals hp).1 hpol hj
    exact ⟨garden sp goals, h2 _ fun g hg => garden_scalar hsp hg (h1 g hg).1 (h1 g hg).2⟩

/-- **C105.** Comparisons do not get in each other's way: a query in which no comparison stands under an odd number of
`NOT`s, and none is `null`, matches some object exactly if it holds when each of its comparisons counts as true if some
object, of its own, matches it. So `a:1 AND a:2 AND a:3` is no contradiction. -/
theorem C105_satisfiable (hsp : Spellable E) (h : Ready E root m) (hp : PathsIn (· ≠ []) root)
    (hpol : Polar true root) :
    (∃ ms, Accepts E m (.obj ms)) ↔
      Judged (fun e => ∃ me ms, Ready E e me ∧ Accepts E me (.obj ms)) root := by
  rw [exists_congr (accepts_obj h hp), ← judged_congr h.allOk h.grammar h.reparses hp fun _ _ _ _ => holdable_iff]
  exact holdable_judged hsp hp hpol

theorem not_firstMember_nil {k : Str} {v : Json} : ¬ FirstMember E [] k v := by
  rintro ⟨pre, raw, post, h, -⟩
  simp at h

theorem not_resolves_empty {p : List Str} {v : Json} : ¬ Resolves E (.obj []) p v := by
  intro h
  cases h with
  | last h => exact not_firstMember_nil h
  | inObject h => exact not_firstMember_nil h
  | inArray h => exact not_firstMember_nil h

theorem sat_empty (n : Node) (hg : NoSubdoc n) :
    (Polar true n → ¬ Sat E (.obj []) n) ∧ (Polar false n → Sat E (.obj []) n) := by
  induction n with
  | and l r ihl ihr =>
    exact ⟨fun h hs => (ihl hg.1).1 h.1 hs.1, fun h => ⟨(ihl hg.1).2 h.1, (ihr hg.2).2 h.2⟩⟩
  | or l r ihl ihr =>
    exact ⟨fun h hs => hs.elim ((ihl hg.1).1 h.1) ((ihr hg.2).1 h.2), fun h => .inl ((ihl hg.1).2 h.1)⟩
  | not e ih => exact ⟨fun h hs => hs ((ih hg).2 h), fun h => (ih hg).1 h⟩
  | subdoc => exact hg.elim
  | expr op f vs pos =>
    refine ⟨fun h hs => ?_, fun h => absurd h.1 (by decide)⟩
    have hu : ∀ s, ¬ ScalarUnder E (.obj []) f s := by
      rintro s ⟨-, h | ⟨_, h, -⟩⟩ <;> exact not_resolves_empty h
    cases op with
    | NUL => exact absurd rfl h.2
    | EXS => exact not_resolves_empty hs.choose_spec
    | EQ | SIM | LT | LTE | GT | GTE =>
      obtain ⟨v, hv, s, hs, he⟩ := hs
      exact hu s hs
    | BET =>
      obtain ⟨a, b, hv, s, hs, he⟩ := hs
      exact hu s hs

/-- **C105.** The empty object tells the two kinds of queries apart: it never matches a query all of whose comparisons
stand under an even number of `NOT`s, and always one all of whose comparisons stand under an odd number. -/
theorem C105_empty (h : Ready E root m) (hp : PathsIn (· ≠ []) root) :
    (Polar true root → ¬ Accepts E m (.obj [])) ∧ (Polar false root → Accepts E m (.obj [])) := by
  rw [accepts_obj h hp]
  exact sat_empty root h.grammar.1

theorem matcher_of_answer {s : Str} {d : Json} {b : Bool} (h : answerOf E s d = some b) :
    ∃ m msgs, newMatcher E (utf8 s) = some (.ok (.ok (m, msgs))) := by
  unfold answerOf at h
  split at h
  · exact ⟨_, _, by assumption⟩
  · cases h

theorem tree_of_run {query : List UInt8} {n : Node}
    (h : (grammarOut E (decode query)).bind (fun r => match r with | .ok n => some n | _ => none) = some n) :
    grammarOut E (decode query) = some (.ok n) := by
  rcases hg : grammarOut E (decode query) with _ | ⟨e | n'⟩ <;> rw [hg] at h <;> simp at h
  rw [h]

theorem ready_of_tree {query : List UInt8} {n : Node} {msgs : List Msg} (hg : grammarOut E (decode query) = some (.ok n))
    (h : newMatcher E query = some (.ok (.ok (m, msgs)))) : Ready E n m := by
  unfold newMatcher at h
  rw [hg] at h
  simp only [Option.map_some, Option.some.injEq] at h
  exact ⟨⟨_, _, m, h, rfl⟩, C01_accepted_from_grammar E query n hg⟩

/-- **C105 is false** of other queries: of `a:exists` and `!a:exists` each is possible, yet nothing matches both. -/
theorem C105_mixed_refuted :
    (∃ m msgs, newMatcher testEnv (utf8 "a:exists AND !a:exists".toList) = some (.ok (.ok (m, msgs))) ∧
      ∀ ms, ¬ Accepts testEnv m (.obj ms)) ∧
    answerOf testEnv "a:exists".toList (.obj [("a".toList, .null)]) = some true ∧
    answerOf testEnv "!a:exists".toList (.obj []) = some true := by
  refine ⟨?_, by decide +kernel, by decide +kernel⟩
  obtain ⟨m, msgs, hm⟩ := matcher_of_answer (E := testEnv) (s := "a:exists AND !a:exists".toList) (d := .obj [])
    (b := false) (by decide +kernel)
  have hg : grammarOut testEnv (decode (utf8 "a:exists AND !a:exists".toList)) = some (.ok
      (.and (.expr .EXS ["a".toList] [] ⟨1, 1, 0, 8⟩) (.not (.expr .EXS ["a".toList] [] ⟨1, 15, 14, 8⟩)))) :=
    tree_of_run (by decide +kernel)
  refine ⟨m, msgs, hm, fun ms h => ?_⟩
  have hs := (accepts_obj (ready_of_tree hg hm) ⟨by simp [PathsIn], by simp [PathsIn]⟩ ms).1 h
  exact hs.2 hs.1

-- three values of one member, and a document with all of them
example : answerOf testEnv "a:1 AND a:2 AND NOT (NOT a:true)".toList
    (.obj [("a".toList, .arr [.num "1".toList, .num "2".toList, .bool true])]) = some true := by decide +kernel

/-! ### C106 -/

theorem textOf_some (hsp : Spellable E) (t : Str) : ∃ s, IsScalar s ∧ TextOf E s t :=
  let ⟨raw, h⟩ := hsp t
  ⟨.str raw, trivial, .str h⟩

theorem nanosOf_some (hsp : Spellable E) (w : Int) : Dated E w ↔ ∃ s, IsScalar s ∧ NanosOf E s w := by
  constructor
  · rintro ⟨t, i, h1, h2⟩
    obtain ⟨s, hs, ht⟩ := textOf_some hsp t
    exact ⟨s, hs, t, i, ht, h1, h2⟩
  · rintro ⟨s, -, t, i, -, h1, h2⟩
    exact ⟨t, i, h1, h2⟩

theorem addrText_some {a : Nat} (h : a < 2 ^ 32) : ∃ t, AddrText t a :=
  ⟨_, a / 2 ^ 24, a / 2 ^ 16 % 256, a / 2 ^ 8 % 256, a % 256, by omega, by omega, by omega, by omega, rfl, by omega⟩

/-- Numbers of the literal are doubles. -/
def FiniteLit (v : Val) : Prop := ∀ c, NumLit v c → ∃ x, c = .fin x ∧ IsDouble x

theorem numberOf_double {x : ℚ} (h : IsDouble x) : ∃ s, IsScalar s ∧ NumberOf E s (.fin x) :=
  let ⟨raw, h⟩ := double_read (E := E) h
  ⟨.num raw, trivial, .num h⟩

theorem numberOf_scalar {s : Json} {f : F64} (h : NumberOf E s f) : ∃ raw, ReadAs E raw f := by
  cases h with
  | num h => exact ⟨_, h⟩
  | str h => exact ⟨_, h⟩

theorem canEqual_iff (hsp : Spellable E) {v : Val} (hok : LitOk v) (hfin : FiniteLit v) :
    (∃ s, IsScalar s ∧ EqHolds E v s) ↔ CanEqual E v := by
  have number : ∀ {c}, NumLit v c → ∃ s, IsScalar s ∧ ∃ f c, NumberOf E s f ∧ NumLit v c ∧ FEq f c := by
    intro c hc
    obtain ⟨x, rfl, hx⟩ := hfin _ hc
    obtain ⟨s, hs, hn⟩ := numberOf_double (E := E) hx
    exact ⟨s, hs, _, _, hn, hc, _, rfl, rfl⟩
  cases v with
  | str lit pos =>
    simp only [EqHolds, CanEqual, StrHolds]
    by_cases hc : (∃ c ∈ lit, 128 ≤ c.toNat) ∧ ¬ (∃ c ∈ lit, c = '?' ∨ c = '*')
    · simp only [if_pos hc]
      have h2 : ∀ c ∈ lit, c ≠ '?' ∧ c ≠ '*' := fun c hm => not_or.1 fun h => hc.2 ⟨c, hm, h⟩
      constructor
      · rintro ⟨s, -, t, -, h⟩ - -
        exact ⟨t, h⟩
      · intro h
        obtain ⟨t, h⟩ := h hc.1 h2
        obtain ⟨s, hs, ht⟩ := textOf_some hsp t
        exact ⟨s, hs, t, ht, h⟩
    · simp only [if_neg hc]
      refine ⟨fun _ h1 h2 => absurd ⟨h1, fun ⟨c, hm, h⟩ => h.elim (h2 c hm).1 (h2 c hm).2⟩ hc, fun _ => ?_⟩
      obtain ⟨t, h⟩ := occurs_some (eqv := fun a b => foldEq E a b = true) (fun c => by simp [foldEq])
        (∀ c ∈ toLower E lit, c.toNat < 128) (toLower E lit)
      obtain ⟨s, hs, ht⟩ := textOf_some hsp t
      exact ⟨s, hs, t, ht, h⟩
  | regex =>
    constructor
    · rintro ⟨s, -, t, -, h⟩
      exact ⟨t, h⟩
    · rintro ⟨t, h⟩
      obtain ⟨s, hs, ht⟩ := textOf_some hsp t
      exact ⟨s, hs, t, ht, h⟩
  | int => exact ⟨fun _ => trivial, fun _ => number .int⟩
  | float => exact ⟨fun _ => trivial, fun _ => number .float⟩
  | bool b => exact ⟨fun _ => trivial, fun _ => ⟨.bool b, trivial, rfl⟩⟩
  | net _ p =>
    refine ⟨fun _ => trivial, fun _ => ?_⟩
    obtain ⟨t, ha⟩ := addrText_some hok.1
    obtain ⟨s, hs, ht⟩ := textOf_some hsp t
    exact ⟨s, hs, t, ht, mentions_some ha⟩
  | time _ t d =>
    cases d with
    | true =>
      constructor
      · rintro ⟨s, hs, w, lo, hi, hn, h⟩
        exact ⟨w, lo, hi, (nanosOf_some hsp w).2 ⟨s, hs, hn⟩, h⟩
      · rintro ⟨w, lo, hi, hn, h⟩
        obtain ⟨s, hs, hn⟩ := (nanosOf_some hsp w).1 hn
        exact ⟨s, hs, w, lo, hi, hn, h⟩
    | false =>
      constructor
      · rintro ⟨s, hs, w, hn, h⟩
        exact ⟨w, (nanosOf_some hsp w).2 ⟨s, hs, hn⟩, h⟩
      · rintro ⟨w, hn, h⟩
        obtain ⟨s, hs, hn⟩ := (nanosOf_some hsp w).1 hn
        exact ⟨s, hs, w, hn, h⟩

theorem fLt_double {x y : ℚ} : FLt (.fin x) (.fin y) ↔ x < y := by simp [FLt, place, Before]

theorem canNumber_iff {op : Op} {x : ℚ} (hx : IsDouble x) (hop : op = .LT ∨ op = .LTE ∨ op = .GT ∨ op = .GTE) :
    (∃ s f, IsScalar s ∧ NumberOf E s f ∧ FRel op f (.fin x)) ↔
      (op = .LT → x = -largest → ∃ raw, ReadAs E raw (.inf true)) ∧
      (op = .GT → x = largest → ∃ raw, ReadAs E raw (.inf false)) := by
  have hb := abs_le.1 (isDouble_bound hx)
  have bound : ∀ {s y}, NumberOf E s (.fin y) → -largest ≤ y ∧ y ≤ largest := by
    intro s y h
    obtain ⟨raw, h⟩ := numberOf_scalar h
    exact abs_le.1 (isDouble_bound (read_double h))
  rcases hop with rfl | rfl | rfl | rfl
  · simp only [FRel, reduceCtorEq, false_implies, and_true, true_implies]
    constructor
    · rintro ⟨s, f, -, hn, hr⟩ rfl
      cases f with
      | fin y => exact absurd (fLt_double.1 hr) (not_lt.2 (bound hn).1)
      | nan => simp [FLt, place] at hr
      | inf b =>
        cases b with
        | true => exact numberOf_scalar hn
        | false => simp [FLt, place, Before] at hr
    · intro h
      by_cases he : x = -largest
      · obtain ⟨raw, h⟩ := h he
        exact ⟨.num raw, _, trivial, .num h, by simp [FLt, place, Before]⟩
      · obtain ⟨s, hs, hn⟩ := numberOf_double (E := E) largest_double.neg
        exact ⟨s, _, hs, hn, fLt_double.2 (lt_of_le_of_ne hb.1 (Ne.symm he))⟩
  · obtain ⟨s, hs, hn⟩ := numberOf_double (E := E) hx
    simp only [reduceCtorEq, false_implies, and_true, iff_true]
    exact ⟨s, _, hs, hn, .inr ⟨_, rfl, rfl⟩⟩
  · simp only [FRel, reduceCtorEq, false_implies, true_and, true_implies]
    constructor
    · rintro ⟨s, f, -, hn, hr⟩ rfl
      cases f with
      | fin y => exact absurd (fLt_double.1 hr) (not_lt.2 (bound hn).2)
      | nan => simp [FLt, place] at hr
      | inf b =>
        cases b with
        | false => exact numberOf_scalar hn
        | true => simp [FLt, place, Before] at hr
    · intro h
      by_cases he : x = largest
      · obtain ⟨raw, h⟩ := h he
        exact ⟨.num raw, _, trivial, .num h, by simp [FLt, place, Before]⟩
      · obtain ⟨s, hs, hn⟩ := numberOf_double (E := E) largest_double
        exact ⟨s, _, hs, hn, fLt_double.2 (lt_of_le_of_ne hb.2 he)⟩
  · obtain ⟨s, hs, hn⟩ := numberOf_double (E := E) hx
    simp only [reduceCtorEq, false_implies, and_true, iff_true]
    exact ⟨s, _, hs, hn, .inr ⟨_, rfl, rfl⟩⟩

theorem canCompare_iff (hsp : Spellable E) {op : Op} (hop : op = .LT ∨ op = .LTE ∨ op = .GT ∨ op = .GTE) {v : Val}
    (hfin : FiniteLit v) (hok : OperandOk op v) : (∃ s, IsScalar s ∧ CmpHolds E op v s) ↔ CanCompare E op v := by
  have hty : typeOf v = .int ∨ typeOf v = .float ∨ typeOf v = .time := by
    rcases hop with rfl | rfl | rfl | rfl <;> exact hok
  have number : ∀ {c}, NumLit v c → (∀ sv t d pos, v ≠ .time sv t d pos) → ((∃ s, IsScalar s ∧ CmpHolds E op v s) ↔
      (op = .LT → NumLit v (.fin (-largest)) → ∃ raw, ReadAs E raw (.inf true)) ∧
      (op = .GT → NumLit v (.fin largest) → ∃ raw, ReadAs E raw (.inf false))) := by
    intro c hc hnt
    obtain ⟨x, rfl, hx⟩ := hfin _ hc
    have hu : ∀ y, NumLit v (.fin y) ↔ x = y :=
      fun y => ⟨fun h => by have := Spec.NumLit.unique hc h; simpa using this, by rintro rfl; exact hc⟩
    rw [hu, hu, ← canNumber_iff hx hop]
    constructor
    · rintro ⟨s, hs, ⟨f, c, h1, h2, h3⟩ | ⟨sv, t, d, pos, w, c, h, -⟩⟩
      · cases Spec.NumLit.unique hc h2
        exact ⟨s, f, hs, h1, h3⟩
      · exact absurd h (hnt _ _ _ _)
    · rintro ⟨s, f, hs, h1, h3⟩
      exact ⟨s, hs, .inl ⟨f, _, h1, hc, h3⟩⟩
  cases v with
  | int => exact number .int (by simp)
  | float => exact number .float (by simp)
  | time sv t d pos =>
    constructor
    · rintro ⟨s, hs, ⟨f, c, h1, h2, h3⟩ | ⟨sv, t, d, pos, w, c, h, hn, hr⟩⟩
      · cases h2
      · cases h
        exact ⟨w, c, (nanosOf_some hsp w).2 ⟨s, hs, hn⟩, hr⟩
    · rintro ⟨w, c, hn, hr⟩
      obtain ⟨s, hs, hn⟩ := (nanosOf_some hsp w).1 hn
      exact ⟨s, hs, .inr ⟨_, _, _, _, w, c, rfl, hn, hr⟩⟩
  | _ => simp [typeOf] at hty

theorem canBetween_iff (hsp : Spellable E) {a b : Val} (ha : FiniteLit a) (hb : FiniteLit b) (hty : OperandOk .BET a)
    (hok : BetweenOk a b) : (∃ s, IsScalar s ∧ BetHolds E a b s) ↔ CanBetween E a b := by
  rcases hok with ⟨sa, ta, da, pa, sb, tb, db, pb, rfl, rfl, -⟩ | ⟨hnt, l, r, hl, hr, hle⟩
  · constructor
    · rintro ⟨s, hs, ⟨f, lo, hi, h1, h2, -⟩ | ⟨_, _, _, _, _, _, _, _, w, lo, hi, h1, h2, hn, h⟩⟩
      · cases h2
      · cases h1
        cases h2
        exact ⟨w, lo, hi, (nanosOf_some hsp w).2 ⟨s, hs, hn⟩, h⟩
    · rintro ⟨w, lo, hi, hn, h⟩
      obtain ⟨s, hs, hn⟩ := (nanosOf_some hsp w).1 hn
      exact ⟨s, hs, .inr ⟨_, _, _, _, _, _, _, _, w, lo, hi, rfl, rfl, hn, h⟩⟩
  · have hcan : CanBetween E a b := by
      cases a <;> first | exact absurd rfl hnt | (unfold CanBetween; trivial)
    refine ⟨fun _ => hcan, fun _ => ?_⟩
    obtain ⟨x, hx, hx'⟩ : ∃ x, NumLit a (.fin x) ∧ IsDouble x := by
      have : ∃ c, NumLit a c := by
        cases a with
        | int => exact ⟨_, .int⟩
        | float => exact ⟨_, .float⟩
        | _ => rcases hty with h | h | h <;> first | exact absurd h hnt | cases h
      obtain ⟨c, hc⟩ := this
      obtain ⟨x, rfl, hx⟩ := ha c hc
      exact ⟨x, hc, hx⟩
    have hl' : l = .fin x := by
      rcases hl with hl | ⟨hl, -⟩
      · exact Spec.NumLit.unique hl hx
      · exact absurd hx (hl _)
    subst hl'
    obtain ⟨y, rfl⟩ : ∃ y, r = .fin y := by
      rcases hr with hr | ⟨-, hr⟩
      · obtain ⟨y, h, -⟩ := hb _ hr
        exact ⟨y, h⟩
      · exact ⟨_, hr⟩
    have hxy : x < y := by
      rcases lt_trichotomy x y with h | h | h
      · exact h
      · exact absurd (.inr ⟨_, rfl, by rw [h]; rfl⟩) hle
      · exact absurd (.inl (fLt_double.2 h)) hle
    obtain ⟨s, hs, hn⟩ := numberOf_double (E := E) hx'
    exact ⟨s, hs, .inl ⟨_, _, _, hn, hx, hr, .inr ⟨_, rfl, rfl⟩, .inl (fLt_double.2 hxy)⟩⟩

/-- **C106.** Which comparisons match anything at all. `exists`, `null`, numbers, booleans, networks and strings always
do, `<` and `>` unless nothing is read as a number beyond. Patterns, times and strings outside ASCII depend on the library: on
whether it finds them in any text, or recognises a text as a time in the range, in 64 bits. -/
theorem C106_comparison (hsp : Spellable E) {op : Op} {f : List Str} {vs : List Val} {pos : Pos}
    (h : Ready E (.expr op f vs pos) m) (hf : f ≠ []) (hfin : ∀ v ∈ vs, FiniteLit v) :
    (∃ ms, Accepts E m (.obj ms)) ↔ CanMatch E op vs := by
  rw [exists_congr (accepts_obj h hf)]
  obtain ⟨sp, hch⟩ := Classical.axiomOfChoice hsp
  obtain ⟨k, rest, rfl⟩ := List.exists_cons_of_ne_nil hf
  have place : ∀ s, IsScalar s → ∃ ms, ScalarUnder E (.obj ms) (k :: rest) s :=
    fun s hs => ⟨_, hs, .inl (plant_resolves hch s rest k)⟩
  have hok : ExprOk E op vs := h.allOk
  have hlit : ∀ v ∈ vs, LitOk v := h.grammar.2
  cases op with
  | EXS => exact ⟨fun _ => trivial, fun _ => ⟨_, _, plant_resolves hch .null rest k⟩⟩
  | NUL => exact ⟨fun _ => trivial, fun _ => ⟨_, ⟨_, plant_resolves hch .null rest k⟩, fun v => plant_unique hch rest k⟩⟩
  | EQ | SIM =>
    constructor
    · rintro ⟨ms, v, hv, s, hs, he⟩
      exact ⟨v, hv, (canEqual_iff hsp (hlit v hv) (hfin v hv)).1 ⟨s, hs.1, he⟩⟩
    · rintro ⟨v, hv, hc⟩
      obtain ⟨s, hs, he⟩ := (canEqual_iff hsp (hlit v hv) (hfin v hv)).2 hc
      obtain ⟨ms, hu⟩ := place s hs
      exact ⟨ms, v, hv, s, hu, he⟩
  | LT | LTE | GT | GTE =>
    constructor
    · rintro ⟨ms, v, hv, s, hs, he⟩
      exact ⟨v, hv, (canCompare_iff hsp (by simp) (hfin v hv) (hok.types v hv)).1 ⟨s, hs.1, he⟩⟩
    · rintro ⟨v, hv, hc⟩
      obtain ⟨s, hs, he⟩ := (canCompare_iff hsp (by simp) (hfin v hv) (hok.types v hv)).2 hc
      obtain ⟨ms, hu⟩ := place s hs
      exact ⟨ms, v, hv, s, hu, he⟩
  | BET =>
    constructor
    · rintro ⟨ms, a, b, rfl, s, hs, he⟩
      exact ⟨a, b, rfl, (canBetween_iff hsp (hfin a (by simp)) (hfin b (by simp)) (hok.types a (by simp))
        (hok.between a b rfl rfl)).1 ⟨s, hs.1, he⟩⟩
    · rintro ⟨a, b, rfl, hc⟩
      obtain ⟨s, hs, he⟩ := (canBetween_iff hsp (hfin a (by simp)) (hfin b (by simp)) (hok.types a (by simp))
        (hok.between a b rfl rfl)).2 hc
      obtain ⟨ms, hu⟩ := place s hs
      exact ⟨ms, a, b, rfl, s, hu, he⟩

theorem lit_finite {pre t : Str} {v : Val} (h : Lit E pre t v) : FiniteLit v := by
  intro c hc
  cases h with
  | float _ _ _ _ _ _ _ hx => cases hc; exact ⟨_, rfl, toF64_isDouble hx⟩
  | int _ _ _ _ _ h1 h2 =>
    cases hc
    have := toF64_int (i := _) (abs_le.2 ⟨h1, h2.le⟩)
    exact ⟨_, this, toF64_isDouble this⟩
  | _ => cases hc

theorem expressible_finite {n : Node} (h : Expressible E (bare n)) : LitsIn FiniteLit n := by
  induction n with
  | and l r ihl ihr => exact ⟨ihl h.1, ihr h.2⟩
  | or l r ihl ihr => exact ⟨ihl h.1, ihr h.2⟩
  | not e ih => exact ih h
  | subdoc => exact h.elim
  | expr op f vs pos =>
    intro v hv
    obtain ⟨t, w, hl, hw⟩ := h.2.2.2 _ (List.mem_map_of_mem hv)
    intro c hc
    refine lit_finite hl c ?_
    cases hc with
    | int => cases w <;> simp only [unplaced, reduceCtorEq, Val.int.injEq] at hw; obtain ⟨rfl, -⟩ := hw; exact .int
    | float => cases w <;> simp only [unplaced, reduceCtorEq, Val.float.injEq] at hw; obtain ⟨rfl, -⟩ := hw; exact .float

/-- **C106.** Whether a query matches anything: of a query in which no comparison stands under an odd number of `NOT`s,
and none is `null`, it is enough to look at the comparisons one by one. -/
theorem C106_query (hsp : Spellable E) {query : List UInt8} {n : Node} {msgs : List Msg}
    (hg : grammarOut E (decode query) = some (.ok n)) (h : newMatcher E query = some (.ok (.ok (m, msgs))))
    (hp : PathsIn (· ≠ []) n) (hpol : Polar true n) :
    (∃ ms, Accepts E m (.obj ms)) ↔ Judged (Possible E) n := by
  have hr := ready_of_tree hg h
  have hfin := expressible_finite ((C69_trees_of_queries E _).1 ⟨query, n, hg, rfl⟩)
  rw [C105_satisfiable hsp hr hp hpol]
  have hok := hr.allOk
  have hgr := hr.grammar
  have hre := hr.reparses
  clear hg h hpol hr
  induction n with
  | and l r ihl ihr =>
    exact and_congr (ihl hp.1 hfin.1 hok.1 ⟨hgr.1.1, hgr.2.1⟩ hre.1) (ihr hp.2 hfin.2 hok.2 ⟨hgr.1.2, hgr.2.2⟩ hre.2)
  | or l r ihl ihr =>
    exact or_congr (ihl hp.1 hfin.1 hok.1 ⟨hgr.1.1, hgr.2.1⟩ hre.1) (ihr hp.2 hfin.2 hok.2 ⟨hgr.1.2, hgr.2.2⟩ hre.2)
  | not e ih => exact not_congr (ih hp hfin hok hgr hre)
  | subdoc => exact Iff.rfl
  | expr op f vs pos =>
    obtain ⟨me, hr⟩ := ready_of_allOk hok hgr hre
    constructor
    · rintro ⟨me, ms, hr, ha⟩
      exact (C106_comparison hsp hr hp hfin).1 ⟨ms, ha⟩
    · intro hc
      obtain ⟨ms, ha⟩ := (C106_comparison hsp hr hp hfin).2 hc
      exact ⟨me, ms, hr, ha⟩

theorem judged_negationless {P : Node → Prop} {n : Node} (h : Negationless n)
    (hP : ∀ op f vs pos, LitsIn Tame (.expr op f vs pos) → ExprOk E op vs → P (.expr op f vs pos))
    (ht : LitsIn Tame n) (hok : AllOk E n) : Polar true n ∧ Judged P n := by
  induction n with
  | and l r ihl ihr =>
    have h1 := ihl h.1 ht.1 hok.1
    have h2 := ihr h.2 ht.2 hok.2
    exact ⟨⟨h1.1, h2.1⟩, h1.2, h2.2⟩
  | or l r ihl ihr =>
    have h1 := ihl h.1 ht.1 hok.1
    have h2 := ihr h.2 ht.2 hok.2
    exact ⟨⟨h1.1, h2.1⟩, .inl h1.2⟩
  | not => exact h.elim
  | subdoc => exact h.elim
  | expr op f vs pos => exact ⟨⟨rfl, h⟩, hP _ _ _ _ ht hok⟩

/-- **C106.** No query of `AND`, `OR` and comparisons with numbers, booleans, networks and ASCII strings is a contradiction,
if infinities can be written: `a:1 AND a:>2 AND a:true AND a:"x"` matches some object. -/
theorem C106_no_contradiction (hsp : Spellable E) (hinf : ∀ b, ∃ raw, ReadAs E raw (.inf b)) {query : List UInt8}
    {n : Node} {msgs : List Msg} (hg : grammarOut E (decode query) = some (.ok n))
    (h : newMatcher E query = some (.ok (.ok (m, msgs)))) (hp : PathsIn (· ≠ []) n) (hn : Negationless n)
    (ht : LitsIn Tame n) : ∃ ms, Accepts E m (.obj ms) := by
  have hok := (ready_of_tree hg h).allOk
  have hP : ∀ op f vs pos, LitsIn Tame (.expr op f vs pos) → ExprOk E op vs → Possible E (.expr op f vs pos) := by
    intro op f vs pos htv hok
    have hmem : ∀ k, vs.length = k + 1 → ∃ v, v ∈ vs := by
      intro k hk
      cases vs with
      | nil => cases hk
      | cons v => exact ⟨v, by simp⟩
    have hcmp : vs.length = 1 → ∃ v ∈ vs, CanCompare E op v := by
      intro hk
      obtain ⟨v, hv⟩ := hmem 0 hk
      refine ⟨v, hv, ?_⟩
      cases v with
      | time => exact (htv _ hv).elim
      | _ => exact ⟨fun _ _ => hinf true, fun _ _ => hinf false⟩
    have heq : 1 ≤ vs.length → ∃ v ∈ vs, CanEqual E v := by
      intro hk
      obtain ⟨v, hv⟩ := hmem (vs.length - 1) (by omega)
      refine ⟨v, hv, ?_⟩
      cases v with
      | time => exact (htv _ hv).elim
      | regex => exact (htv _ hv).elim
      | str lit =>
        rintro ⟨c, hc, h⟩
        exact absurd (htv _ hv c hc) (by omega)
      | _ => trivial
    have har := hok.arity
    cases op with
    | EXS | NUL => trivial
    | EQ | SIM => exact heq har
    | LT | LTE | GT | GTE => exact hcmp har
    | BET =>
      match vs, har with
      | [a, b], _ =>
        refine ⟨a, b, rfl, ?_⟩
        cases a with
        | time => exact (htv _ (List.mem_cons_self)).elim
        | _ => trivial
  obtain ⟨hpol, hj⟩ := judged_negationless hn hP ht hok
  exact (C106_query hsp hg h hp hpol).2 hj

theorem no_time_between {w lo hi : Int} (h1 : Int64Of 7258118400000000000 lo) (h2 : Int64Of 10413792000000000000 hi)
    (h3 : lo ≤ w) (h4 : w ≤ hi) : False := by
  obtain ⟨_, _, k, hk⟩ := h1
  obtain ⟨_, _, l, hl⟩ := h2
  omega

/-- **C106, refuted for times.** A range of days that is accepted and that nothing can be in, whatever texts are recognised
as times: `a:><(2200-01-01,2300-01-01)`, because 2300 is past the end of 64-bit nanoseconds. -/
theorem C106_days_refuted {f : List Str} (hf : f ≠ []) :
    ∃ a b m, newTimeVal "2200-01-01".toList noPosition = some a ∧ newTimeVal "2300-01-01".toList noPosition = some b ∧
      Ready E (.expr .BET f [a, b] noPosition) m ∧ ∀ ms, ¬ Accepts E m (.obj ms) := by
  obtain ⟨m, hm⟩ : ∃ m, Ready E (.expr .BET f [.time "2200-01-01".toList 7258118400000000000 true noPosition,
      .time "2300-01-01".toList 10413792000000000000 true noPosition] noPosition) m := by
    refine ready_of_allOk ⟨rfl, ?_, ?_, by simp, ?_⟩ ⟨trivial, ?_⟩ ?_
    · simp [OperandOk, typeOf]
    · simp [Val.toStr]
    · intro a b _ h
      cases h
      exact .inl ⟨_, _, _, _, _, _, _, _, rfl, rfl, by decide⟩
    · simp [LitsIn, LitOk]
    · simp [LitsIn, ReParses]
  refine ⟨_, _, m, by decide +kernel, by decide +kernel, hm, fun ms h => ?_⟩
  obtain ⟨a, b, hab, s, -, ⟨_, _, _, -, h, -⟩ | ⟨_, _, _, _, _, _, _, _, w, lo, hi, rfl, rfl, -, h1, h2, h3, h4⟩⟩ :=
    (accepts_obj hm hf ms).1 h
  · cases hab
    cases h
  · cases hab
    exact no_time_between h1 h2 h3 h4

/-- An environment whose strings are as they are spelled, and with the words for the infinities. -/
def spellEnv : Env := { testEnv with
  unescape := some
  parseFloatOther := fun t =>
    (if t = "Inf".toList then some (.inf false) else if t = "-Inf".toList then some (.inf true) else none) }

-- the hypotheses are met: a library, and a query that no single value matches
example : Spellable spellEnv ∧ ∀ b, ∃ raw, ReadAs spellEnv raw (.inf b) := by
  have hn : ∀ t q, decimalValue t = none → ¬ DecText t q := fun t q h hq => by
    rw [decimalValue_of t q hq] at h; cases h
  refine ⟨fun k => ⟨k, rfl⟩, fun b => ?_⟩
  cases b with
  | true => exact ⟨"-Inf".toList, .special (fun q => hn _ q (by decide +kernel)) (by decide) (by simp)⟩
  | false => exact ⟨"Inf".toList, .special (fun q => hn _ q (by decide +kernel)) (by decide) (by simp)⟩

example : ∃ n m msgs, grammarOut spellEnv (decode (utf8 "a:1 AND a:>2 AND b.c:(true,\"x\")".toList)) = some (.ok n) ∧
    newMatcher spellEnv (utf8 "a:1 AND a:>2 AND b.c:(true,\"x\")".toList) = some (.ok (.ok (m, msgs))) ∧
    PathsIn (· ≠ []) n ∧ Negationless n ∧ Polar true n ∧ LitsIn Tame n := by
  obtain ⟨m, msgs, hm⟩ := matcher_of_answer (E := spellEnv) (s := "a:1 AND a:>2 AND b.c:(true,\"x\")".toList)
    (d := .obj []) (b := false) (by decide +kernel)
  refine ⟨_, m, msgs, tree_of_run (n := .and
    (.expr .EQ ["a".toList] [.int 1 "1".toList ⟨1, 3, 2, 1⟩] ⟨1, 1, 0, 3⟩) (.and
    (.expr .GT ["a".toList] [.int 2 "2".toList ⟨1, 12, 11, 1⟩] ⟨1, 9, 8, 4⟩)
    (.expr .EQ ["b".toList, "c".toList] [.bool true ⟨1, 23, 22, 4⟩, .str "x".toList ⟨1, 28, 27, 3⟩] ⟨1, 18, 17, 14⟩)))
    (by decide +kernel), hm, ?_, ?_, ?_, ?_⟩
  · simp [PathsIn]
  · simp [Negationless]
  · simp [Polar]
  · simp [LitsIn, Tame]

end Aql
