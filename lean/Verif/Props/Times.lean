import Verif.Props.Matching
import Verif.Props.Numbers
import Verif.Proofs.Time
/-!
Properties C31 - C33: dates and times.
-/

namespace Aql

open Spec

variable {E : Env} {f : List Str} {m m1 m2 m3 : Matcher} {pos pos' : Pos} {d : Json} {op : Op}

/-- The scalar's text is recognised as the instant `i`, in nanoseconds since 1970. -/
def InstantOf (E : Env) (s : Json) (i : Int) : Prop :=
  ∃ txt, TextOf E s txt ∧ E.dateparse txt = some i

/-- The instant fits 64-bit nanoseconds (roughly the years 1678 to 2262). -/
def Fits (i : Int) : Prop := -(2 ^ 63 : Int) ≤ i ∧ i < 2 ^ 63

/-- All times found under the path fit. -/
def TimesFit (E : Env) (d : Json) (f : List Str) : Prop :=
  ∀ s i, ScalarUnder E d f s → InstantOf E s i → Fits i

theorem int64Of_fits {i : Int} (h : Fits i) (w : Int) : Int64Of i w ↔ w = i := by
  obtain ⟨h1, h2⟩ := h
  constructor
  · rintro ⟨h3, h4, k, hk⟩
    have : k = 0 := by omega
    subst this; omega
  · rintro rfl; exact ⟨h1, h2, 0, by omega⟩

theorem nanosOf_fits {s : Json} (hf : ∀ i, InstantOf E s i → Fits i) (w : Int) :
    NanosOf E s w ↔ InstantOf E s w := by
  constructor
  · rintro ⟨t, i, h1, h2, h3⟩
    rw [int64Of_fits (hf i ⟨t, h1, h2⟩)] at h3
    subst h3; exact ⟨t, h1, h2⟩
  · rintro ⟨t, h1, h2⟩
    exact ⟨t, w, h1, h2, (int64Of_fits (hf w ⟨t, h1, h2⟩) w).2 rfl⟩

/-! ### C31 -/

/-- **C31.** A day literal matches exactly the instants from its midnight to the next midnight, if
that day and the times in the document fit 64-bit nanoseconds. -/
theorem C31_day {sv : Str} {t : Int} {p : Pos} (h : Ready E (.expr .EQ f [.time sv t true p] pos) m)
    (hp : Plain d f) (ht : -(2 ^ 63 : Int) ≤ t ∧ t + dayNanos ≤ 2 ^ 63) (hd : TimesFit E d f) :
    Accepts E m d ↔ ∃ s i, ScalarUnder E d f s ∧ InstantOf E s i ∧ t ≤ i ∧ i < t + dayNanos := by
  have hday : dayNanos = 86400 * 10 ^ 9 := rfl
  have hhi : ∀ hi, (∃ h, Int64Of (t + 86400 * 10 ^ 9) h ∧ Int64Of (h - 1) hi) ↔
      hi = t + dayNanos - 1 := by
    intro hi
    rcases lt_or_eq_of_le ht.2 with hlt | heq
    · constructor
      · rintro ⟨h, h1, h2⟩
        rw [int64Of_fits ⟨by omega, by omega⟩] at h1
        subst h1
        rw [int64Of_fits ⟨by omega, by omega⟩] at h2
        omega
      · rintro rfl
        exact ⟨_, (int64Of_fits ⟨by omega, by omega⟩ _).2 rfl,
          (int64Of_fits ⟨by omega, by omega⟩ _).2 (by omega)⟩
    · constructor
      · rintro ⟨h, ⟨h1, h2, k, hk⟩, ⟨h3, h4, k', hk'⟩⟩
        omega
      · rintro rfl
        exact ⟨-(2 ^ 63), ⟨by omega, by omega, 1, by omega⟩, ⟨by omega, by omega, -1, by omega⟩⟩
  rw [h.accepts hp]
  simp only [Sat, List.mem_singleton, exists_eq_left, EqHolds]
  constructor
  · rintro ⟨s, hs, w, lo, hi, hw, hlo, hh, h1, h2⟩
    rw [nanosOf_fits (fun i hi => hd s i hs hi)] at hw
    rw [int64Of_fits ⟨ht.1, by omega⟩] at hlo
    rw [hhi] at hh
    exact ⟨s, w, hs, hw, by omega, by omega⟩
  · rintro ⟨s, i, hs, hi, h1, h2⟩
    refine ⟨s, hs, i, t, t + dayNanos - 1, ?_, ?_, (hhi _).2 rfl, h1, by omega⟩
    · rw [nanosOf_fits (fun i hi => hd s i hs hi)]; exact hi
    · rw [int64Of_fits ⟨ht.1, by omega⟩]

/-! ### C32 -/

/-- **C32, the part that holds.** `<`, `<=`, `>`, `>=` with a datetime literal are chronological if
the literal and the times in the document fit 64-bit nanoseconds. Missing: other years, see
`C32_chronological_refuted`. -/
theorem C32_order_partial {sv : Str} {t : Int} {b : Bool} {p : Pos} (hop : OrderOp op)
    (h : Ready E (.expr op f [.time sv t b p] pos) m) (hp : Plain d f) (ht : Fits t)
    (hd : TimesFit E d f) :
    Accepts E m d ↔ ∃ s i, ScalarUnder E d f s ∧ InstantOf E s i ∧ IRel op i t := by
  have hsat : Sat E d (.expr op f [.time sv t b p] pos) ↔
      ∃ s, ScalarUnder E d f s ∧ CmpHolds E op (.time sv t b p) s := by
    rcases hop with rfl | rfl | rfl | rfl <;> simp [Sat]
  rw [h.accepts hp, hsat]
  constructor
  · rintro ⟨s, hs, ⟨_, _, _, hn, _⟩ | ⟨sv', t', b', p', w, c, he, hw, hc, hr⟩⟩
    · cases hn
    · cases he
      rw [nanosOf_fits (fun i hi => hd s i hs hi)] at hw
      rw [int64Of_fits ht] at hc
      subst hc
      exact ⟨s, w, hs, hw, hr⟩
  · rintro ⟨s, i, hs, hi, hr⟩
    refine ⟨s, hs, .inr ⟨sv, t, b, p, i, t, rfl, ?_, (int64Of_fits ht t).2 rfl, hr⟩⟩
    rw [nanosOf_fits (fun i hi => hd s i hs hi)]; exact hi

/-- **C32, the part that holds.** Equality with a full timestamp is equality of instants. -/
theorem C32_equal_partial {sv : Str} {t : Int} {p : Pos}
    (h : Ready E (.expr .EQ f [.time sv t false p] pos) m) (hp : Plain d f) (ht : Fits t)
    (hd : TimesFit E d f) :
    Accepts E m d ↔ ∃ s, ScalarUnder E d f s ∧ InstantOf E s t := by
  rw [h.accepts hp]
  simp only [Sat, List.mem_singleton, exists_eq_left, EqHolds, int64Of_fits ht]
  constructor
  · rintro ⟨s, hs, w, hw, rfl⟩
    rw [nanosOf_fits (fun i hi => hd s i hs hi)] at hw
    exact ⟨s, hs, hw⟩
  · rintro ⟨s, hs, hi⟩
    exact ⟨s, hs, t, (nanosOf_fits (fun i hi => hd s i hs hi) t).2 hi, rfl⟩

/-- **C32, the part that holds.** `><` between two datetimes includes both ends. -/
theorem C32_between_partial {sa sb : Str} {ta tb : Int} {da db : Bool} {pa pb : Pos}
    (h : Ready E (.expr .BET f [.time sa ta da pa, .time sb tb db pb] pos) m) (hp : Plain d f)
    (ha : Fits ta) (hb : Fits tb) (hd : TimesFit E d f) :
    Accepts E m d ↔ ∃ s i, ScalarUnder E d f s ∧ InstantOf E s i ∧ ta ≤ i ∧ i ≤ tb := by
  rw [h.accepts hp]
  simp only [Sat]
  constructor
  · rintro ⟨a, b, he, s, hs, hh⟩
    simp only [List.cons.injEq, and_true] at he
    obtain ⟨rfl, rfl⟩ := he
    rcases hh with ⟨_, _, _, _, hn, _⟩ | ⟨_, _, _, _, _, _, _, _, w, lo, hi, he1, he2, hw, hlo, hhi, h1, h2⟩
    · cases hn
    · cases he1; cases he2
      rw [nanosOf_fits (fun i hi => hd s i hs hi)] at hw
      rw [int64Of_fits ha] at hlo
      rw [int64Of_fits hb] at hhi
      exact ⟨s, w, hs, hw, by omega, by omega⟩
  · rintro ⟨s, i, hs, hi, h1, h2⟩
    exact ⟨_, _, rfl, s, hs, .inr ⟨_, _, _, _, _, _, _, _, i, ta, tb, rfl, rfl,
      (nanosOf_fits (fun i hi => hd s i hs hi) i).2 hi, (int64Of_fits ha _).2 rfl,
      (int64Of_fits hb _).2 rfl, h1, h2⟩⟩

/-- A comparison with one datetime literal compiles. -/
theorem ready_time (E : Env) (op : Op) (hop : OrderOp op ∨ op = .EQ) (f : List Str) (t : Int)
    (b : Bool) (sv : Str) (hsv : sv ≠ "true".toList) :
    ∃ m, Ready E (.expr op f [.time sv t b noPosition] noPosition) m := by
  refine ready_of_allOk ⟨?_, ?_, ?_, ?_, ?_⟩ ⟨trivial, by simp [LitsIn, LitOk]⟩
    (by simp [LitsIn, ReParses])
  · rcases hop with (rfl | rfl | rfl | rfl) | rfl <;> simp [ArityOk]
  · intro v hv
    simp only [List.mem_singleton] at hv; subst hv
    rcases hop with (rfl | rfl | rfl | rfl) | rfl <;> simp [OperandOk, Val.type]
  · simp
  · rintro - ⟨h, -⟩
    simp only [List.map_cons, List.map_nil, List.mem_singleton, Val.toStr] at h
    exact hsv h.symm
  · intro a b h
    rcases hop with (rfl | rfl | rfl | rfl) | rfl <;> cases h

theorem single_str {raw k : Str} (hk : E.unescape raw = some k) (t : Str) (v : Json) :
    ScalarUnder E (.obj [(raw, .str t)]) [k] v ↔ v = .str t :=
  single_scalar hk (s := .str t) trivial v

/-- **C32, refuted.** `2300-01-01` is an accepted day literal and 2020-01-01 is before it, but
`a:<2300-01-01` does not match a document whose only time is 2020-01-01. -/
theorem C32_chronological_refuted (hk : E.unescape "a".toList = some "a".toList)
    (ht : E.unescape "2020-01-01".toList = some "2020-01-01".toList)
    (hd : E.dateparse "2020-01-01".toList = some 1577836800000000000) :
    ∃ t m, newTimeVal "2300-01-01".toList noPosition = some (.time "2300-01-01".toList t true noPosition) ∧
      Ready E (.expr .LT ["a".toList] [.time "2300-01-01".toList t true noPosition] noPosition) m ∧
      InstantOf E (.str "2020-01-01".toList) 1577836800000000000 ∧ 1577836800000000000 < t ∧
      ¬ Accepts E m (.obj [("a".toList, .str "2020-01-01".toList)]) := by
  obtain ⟨m, hm⟩ := ready_time E .LT (.inl (.inl rfl)) ["a".toList] 10413792000000000000 true
    "2300-01-01".toList (by decide +kernel)
  refine ⟨_, m, by decide +kernel, hm, ⟨_, .str ht, hd⟩, by decide, ?_⟩
  rw [hm.accepts plain_single]
  simp only [Sat, List.mem_singleton, exists_eq_left]
  rintro ⟨s, hs, ⟨_, _, _, hn, _⟩ | ⟨_, _, _, _, w, c, he, ⟨txt, i, h1, h2, h3⟩, hc, hr⟩⟩
  · cases hn
  · cases he
    rw [single_str hk] at hs
    subst hs
    cases h1 with
    | str h1 =>
      rw [ht] at h1; cases h1
      rw [hd] at h2; cases h2
      rw [int64Of_fits ⟨by decide, by decide⟩] at h3
      subst h3
      obtain ⟨c1, c2, k, hk⟩ := hc
      simp only [IRel] at hr
      omega

example : testEnv.unescape "a".toList = some "a".toList ∧
    testEnv.unescape "2020-01-01".toList = some "2020-01-01".toList ∧
    testEnv.dateparse "2020-01-01".toList = some 1577836800000000000 := by decide +kernel

-- the hypotheses of C31/C32 are met: 2020-02-29 and a time in that day
example : ∃ t m, newTimeVal "2020-02-29".toList noPosition = some (.time "2020-02-29".toList t true noPosition) ∧
    Ready testEnv (.expr .EQ ["a".toList] [.time "2020-02-29".toList t true noPosition] noPosition) m ∧
    (-(2 ^ 63 : Int) ≤ t ∧ t + dayNanos ≤ 2 ^ 63) ∧
    TimesFit testEnv (.obj [("a".toList, .str "2020-02-29T23:59:59.5Z".toList)]) ["a".toList] ∧
    Accepts testEnv m (.obj [("a".toList, .str "2020-02-29T23:59:59.5Z".toList)]) := by
  have hk : testEnv.unescape "a".toList = some "a".toList := by decide +kernel
  have hu : testEnv.unescape "2020-02-29T23:59:59.5Z".toList = some "2020-02-29T23:59:59.5Z".toList := by
    decide +kernel
  have hd : testEnv.dateparse "2020-02-29T23:59:59.5Z".toList = some 1583020799500000000 := by
    decide +kernel
  obtain ⟨m, hm⟩ := ready_time testEnv .EQ (.inr rfl) ["a".toList] 1582934400000000000 true
    "2020-02-29".toList (by decide +kernel)
  have hfit : TimesFit testEnv (.obj [("a".toList, .str "2020-02-29T23:59:59.5Z".toList)]) ["a".toList] := by
    rintro s i hs ⟨txt, h1, h2⟩
    rw [single_str hk] at hs
    subst hs
    cases h1 with
    | str h1 =>
      rw [hu] at h1; cases h1
      rw [hd] at h2; cases h2
      exact ⟨by decide, by decide⟩
  refine ⟨_, m, by decide +kernel, hm, by decide, hfit, ?_⟩
  rw [C31_day hm plain_single (by decide) hfit]
  exact ⟨_, _, (single_str hk _ _).2 rfl, ⟨_, .str hu, hd⟩, by decide, by decide⟩

/-! ### Exactly -/

/-- The number in `[-2^63, 2^63)` that differs from `i` by a multiple of `2^64`. -/
def Spec.wrapped (i : Int) : Int := (i + 2 ^ 63) % 2 ^ 64 - 2 ^ 63

/-- The span of about 584 years in which the instant lies; span 0 is 1677 to 2262. -/
def Spec.span (i : Int) : Int := (i + 2 ^ 63) / 2 ^ 64

example : wrapped 1577836800000000000 = 1577836800000000000 ∧ span 1577836800000000000 = 0 := by decide

-- 2300-01-01 is taken for an instant of the year 1715
example : wrapped 10413792000000000000 = -8032952073709551616 ∧ span 10413792000000000000 = 1 := by decide

theorem int64Of_wrapped (i w : Int) : Int64Of i w ↔ w = wrapped i := by
  unfold Int64Of wrapped
  constructor
  · rintro ⟨h1, h2, k, hk⟩; omega
  · rintro rfl
    exact ⟨by omega, by omega, (i + 2 ^ 63) / 2 ^ 64, by omega⟩

theorem nanosOf_wrapped {s : Json} (w : Int) :
    NanosOf E s w ↔ ∃ i, InstantOf E s i ∧ w = wrapped i := by
  constructor
  · rintro ⟨t, i, h1, h2, h3⟩
    exact ⟨i, ⟨t, h1, h2⟩, (int64Of_wrapped i w).1 h3⟩
  · rintro ⟨i, ⟨t, h1, h2⟩, h3⟩
    exact ⟨t, i, h1, h2, (int64Of_wrapped i w).2 h3⟩

/-- Within one span the order is that of time. -/
theorem wrapped_order {a b : Int} (h : span a = span b) :
    (wrapped a < wrapped b ↔ a < b) ∧ (wrapped a ≤ wrapped b ↔ a ≤ b) := by
  unfold span at h; unfold wrapped
  constructor <;> constructor <;> intro h' <;> omega

/-- **C32 (exact).** `<`, `<=`, `>`, `>=` with a datetime literal compare the nanoseconds reduced to 64
bits, for all instants. -/
theorem C32_order_exact {sv : Str} {t : Int} {b : Bool} {p : Pos} (hop : OrderOp op)
    (h : Ready E (.expr op f [.time sv t b p] pos) m) (hp : Plain d f) :
    Accepts E m d ↔ ∃ s i, ScalarUnder E d f s ∧ InstantOf E s i ∧ IRel op (wrapped i) (wrapped t) := by
  have hsat : Sat E d (.expr op f [.time sv t b p] pos) ↔
      ∃ s, ScalarUnder E d f s ∧ CmpHolds E op (.time sv t b p) s := by
    rcases hop with rfl | rfl | rfl | rfl <;> simp [Sat]
  rw [h.accepts hp, hsat]
  constructor
  · rintro ⟨s, hs, ⟨_, _, _, hn, _⟩ | ⟨sv', t', b', p', w, c, he, hw, hc, hr⟩⟩
    · cases hn
    · cases he
      obtain ⟨i, hi, rfl⟩ := (nanosOf_wrapped w).1 hw
      rw [int64Of_wrapped] at hc
      subst hc
      exact ⟨s, i, hs, hi, hr⟩
  · rintro ⟨s, i, hs, hi, hr⟩
    exact ⟨s, hs, .inr ⟨sv, t, b, p, wrapped i, wrapped t, rfl, (nanosOf_wrapped _).2 ⟨i, hi, rfl⟩,
      (int64Of_wrapped t _).2 rfl, hr⟩⟩

/-- **C32 (exact).** Equality with a full timestamp is equality up to multiples of `2^64` nanoseconds. -/
theorem C32_equal_exact {sv : Str} {t : Int} {p : Pos}
    (h : Ready E (.expr .EQ f [.time sv t false p] pos) m) (hp : Plain d f) :
    Accepts E m d ↔ ∃ s i, ScalarUnder E d f s ∧ InstantOf E s i ∧ (2 ^ 64 : Int) ∣ i - t := by
  rw [h.accepts hp]
  simp only [Sat, List.mem_singleton, exists_eq_left, EqHolds, int64Of_wrapped]
  have hw : ∀ i, (wrapped t = wrapped i) ↔ (2 ^ 64 : Int) ∣ i - t := by
    intro i; unfold wrapped
    constructor
    · intro h; omega
    · intro h; omega
  constructor
  · rintro ⟨s, hs, w, hw', rfl⟩
    obtain ⟨i, hi, he⟩ := (nanosOf_wrapped _).1 hw'
    exact ⟨s, i, hs, hi, (hw i).1 he⟩
  · rintro ⟨s, i, hs, hi, hd⟩
    exact ⟨s, hs, wrapped t, (nanosOf_wrapped _).2 ⟨i, hi, (hw i).2 hd⟩, rfl⟩

/-- **C32 (exact).** `><` between two datetimes, for all instants. -/
theorem C32_between_exact {sa sb : Str} {ta tb : Int} {da db : Bool} {pa pb : Pos}
    (h : Ready E (.expr .BET f [.time sa ta da pa, .time sb tb db pb] pos) m) (hp : Plain d f) :
    Accepts E m d ↔ ∃ s i, ScalarUnder E d f s ∧ InstantOf E s i ∧
      wrapped ta ≤ wrapped i ∧ wrapped i ≤ wrapped tb := by
  rw [h.accepts hp]
  simp only [Sat]
  constructor
  · rintro ⟨a, b, he, s, hs, hh⟩
    simp only [List.cons.injEq, and_true] at he
    obtain ⟨rfl, rfl⟩ := he
    rcases hh with ⟨_, _, _, _, hn, _⟩ | ⟨_, _, _, _, _, _, _, _, w, lo, hi, he1, he2, hw, hlo, hhi, h1, h2⟩
    · cases hn
    · cases he1; cases he2
      obtain ⟨i, hi, rfl⟩ := (nanosOf_wrapped w).1 hw
      rw [int64Of_wrapped] at hlo hhi
      exact ⟨s, i, hs, hi, by omega, by omega⟩
  · rintro ⟨s, i, hs, hi, h1, h2⟩
    exact ⟨_, _, rfl, s, hs, .inr ⟨_, _, _, _, _, _, _, _, wrapped i, wrapped ta, wrapped tb, rfl, rfl,
      (nanosOf_wrapped _).2 ⟨i, hi, rfl⟩, (int64Of_wrapped ta _).2 rfl,
      (int64Of_wrapped tb _).2 rfl, h1, h2⟩⟩

/-- **C31 (exact).** A day literal matches the instants whose reduced nanoseconds lie between those of
its first and its last nanosecond, for all days and instants. -/
theorem C31_day_exact {sv : Str} {t : Int} {p : Pos}
    (h : Ready E (.expr .EQ f [.time sv t true p] pos) m) (hp : Plain d f) :
    Accepts E m d ↔ ∃ s i, ScalarUnder E d f s ∧ InstantOf E s i ∧
      wrapped t ≤ wrapped i ∧ wrapped i ≤ wrapped (t + dayNanos - 1) := by
  have hday : dayNanos = 86400 * 10 ^ 9 := rfl
  have hhi : ∀ hi, (∃ h, Int64Of (t + 86400 * 10 ^ 9) h ∧ Int64Of (h - 1) hi) ↔
      hi = wrapped (t + dayNanos - 1) := by
    intro hi
    simp only [int64Of_wrapped, exists_eq_left]
    unfold wrapped
    constructor <;> intro h <;> omega
  rw [h.accepts hp]
  simp only [Sat, List.mem_singleton, exists_eq_left, EqHolds]
  constructor
  · rintro ⟨s, hs, w, lo, hi, hw, hlo, hh, h1, h2⟩
    obtain ⟨i, hi', rfl⟩ := (nanosOf_wrapped w).1 hw
    rw [int64Of_wrapped] at hlo
    rw [hhi] at hh
    exact ⟨s, i, hs, hi', by omega, by omega⟩
  · rintro ⟨s, i, hs, hi, h1, h2⟩
    exact ⟨s, hs, wrapped i, wrapped t, _, (nanosOf_wrapped _).2 ⟨i, hi, rfl⟩,
      (int64Of_wrapped t _).2 rfl, (hhi _).2 rfl, h1, by omega⟩

/-- **C32.** Comparisons are chronological whenever literal and times lie in one span, not only in the
span of today. -/
theorem C32_one_span_partial {sv : Str} {t : Int} {b : Bool} {p : Pos} (hop : OrderOp op)
    (h : Ready E (.expr op f [.time sv t b p] pos) m) (hp : Plain d f)
    (hd : ∀ s i, ScalarUnder E d f s → InstantOf E s i → span i = span t) :
    Accepts E m d ↔ ∃ s i, ScalarUnder E d f s ∧ InstantOf E s i ∧ IRel op i t := by
  rw [C32_order_exact hop h hp]
  have hr : ∀ s i, ScalarUnder E d f s → InstantOf E s i →
      (IRel op (wrapped i) (wrapped t) ↔ IRel op i t) := by
    intro s i hs hi
    have h1 := wrapped_order (hd s i hs hi)
    have h2 := wrapped_order (hd s i hs hi).symm
    rcases hop with rfl | rfl | rfl | rfl <;> simp only [IRel] <;>
      first | exact h1.1 | exact h1.2 | exact h2.1 | exact h2.2
  constructor
  · rintro ⟨s, i, hs, hi, h⟩; exact ⟨s, i, hs, hi, (hr s i hs hi).1 h⟩
  · rintro ⟨s, i, hs, hi, h⟩; exact ⟨s, i, hs, hi, (hr s i hs hi).2 h⟩

/-- **C32 (exact).** Every literal outside the span of today is compared wrongly with some time of
that span, by `<` or `<=`. -/
theorem C32_wrong_outside {t : Int} (ht : span t ≠ 0) :
    ∃ op i, OrderOp op ∧ Fits i ∧ ¬ (IRel op (wrapped i) (wrapped t) ↔ IRel op i t) := by
  unfold span at ht
  rcases lt_or_gt_of_ne ht with h | h
  · refine ⟨.LTE, -(2 ^ 63), by simp [OrderOp], ⟨by omega, by omega⟩, ?_⟩
    simp only [IRel, wrapped]
    omega
  · refine ⟨.LT, 2 ^ 63 - 1, by simp [OrderOp], ⟨by omega, by omega⟩, ?_⟩
    simp only [IRel, wrapped]
    omega

/-! ### C33 -/

theorem stamp_length {s : Str} {i : Int} (h : StampText s i) : s.length ≠ 10 := by
  obtain ⟨dt, x, n, ct, secs, ft, ns, zt, off, hd, -, -, -, -, -, rfl, -⟩ := h
  have := hd.length
  simp only [List.length_append, List.length_cons]
  omega

/-- **C33, C04.** Which texts are datetime literals and what they denote: a day denotes its midnight
UTC, a timestamp its instant. Equal text denotes equal instants. -/
theorem C33_literal (b : Str) (p : Pos) (v : Val) :
    newTimeVal b p = some v ↔
      ∃ i, (DayText b i ∧ v = .time b i true p) ∨ (StampText b i ∧ v = .time b i false p) := by
  unfold newTimeVal
  by_cases hl : b.length = 10
  · rw [if_pos hl, Option.map_eq_some_iff]
    constructor
    · rintro ⟨i, hi, rfl⟩
      exact ⟨i, .inl ⟨(parseDay_iff b i).1 hi, rfl⟩⟩
    · rintro ⟨i, ⟨h, rfl⟩ | ⟨h, -⟩⟩
      · exact ⟨i, (parseDay_iff b i).2 h, rfl⟩
      · exact absurd hl (stamp_length h)
  · rw [if_neg hl, Option.map_eq_some_iff]
    constructor
    · rintro ⟨i, hi, rfl⟩
      exact ⟨i, .inr ⟨(parseRFC3339_iff b i).1 hi, rfl⟩⟩
    · rintro ⟨i, ⟨⟨x, h, -⟩, -⟩ | ⟨h, rfl⟩⟩
      · exact absurd h.length hl
      · exact ⟨i, (parseRFC3339_iff b i).2 h, rfl⟩

/-- The instant of an accepted day literal. -/
theorem day_literal {b : Str} {x : Date} {p : Pos} {i : Int} {sv : Str} (hx : DateText b x)
    (h : newTimeVal b p = some (.time sv i true p)) :
    x.Valid ∧ i = dayNumber x.y x.m x.d * dayNanos := by
  obtain ⟨j, ⟨⟨x', hx', hv, n, hn, rfl⟩, he⟩ | ⟨_, he⟩⟩ := (C33_literal b p _).1 h
  · cases he
    rw [hx.unique hx']
    exact ⟨hv, by rw [dayNumber_of_count hn]⟩
  · cases he

/-- **C33.** Accepted day literals are ordered like their calendar dates. -/
theorem C33_calendar_order {b b' : Str} {x x' : Date} {p p' : Pos} {i i' : Int} {sv sv' : Str}
    (hx : DateText b x) (hx' : DateText b' x')
    (h : newTimeVal b p = some (.time sv i true p))
    (h' : newTimeVal b' p' = some (.time sv' i' true p')) : i < i' ↔ x.Before x' := by
  obtain ⟨v, rfl⟩ := day_literal hx h
  obtain ⟨v', rfl⟩ := day_literal hx' h'
  rw [← dayNumber_lt_iff v v']
  simp only [dayNanos]
  omega

/-- **C33.** The literal of the following day denotes the instant exactly 24 hours later. -/
theorem C33_consecutive_days {b b' : Str} {x : Date} {p p' : Pos} {i i' : Int} {sv sv' : Str}
    (hx : DateText b x) (hx' : DateText b' x.next)
    (h : newTimeVal b p = some (.time sv i true p))
    (h' : newTimeVal b' p' = some (.time sv' i' true p')) : i' = i + 24 * 3600 * 10 ^ 9 := by
  obtain ⟨v, rfl⟩ := day_literal hx h
  obtain ⟨v', rfl⟩ := day_literal hx' h'
  rw [dayNumber_next v]
  simp only [dayNanos]
  omega

-- 2024-02-29 is followed by 2024-03-01
example : DateText "2024-02-29".toList ⟨2024, 2, 29⟩ ∧
    DateText "2024-03-01".toList (⟨2024, 2, 29⟩ : Date).next ∧
    newTimeVal "2024-02-29".toList noPosition =
      some (.time "2024-02-29".toList 1709164800000000000 true noPosition) ∧
    newTimeVal "2024-03-01".toList noPosition =
      some (.time "2024-03-01".toList 1709251200000000000 true noPosition) := by
  refine ⟨⟨"2024".toList, "02".toList, "29".toList, ?_, rfl, ?_, rfl, ?_, rfl, by decide, by decide,
    by decide, by decide⟩, ⟨"2024".toList, "03".toList, "01".toList, ?_, rfl, ?_, rfl, ?_, rfl,
    by decide, by decide, by decide, by decide⟩, by decide +kernel, by decide +kernel⟩ <;>
  · rw [AllDigits]; decide

end Aql
