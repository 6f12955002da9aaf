import Verif.Props.Matching
import Verif.Props.Validation
import Verif.Proofs.Rounding
import Verif.Proofs.Number
/-!
Properties C28 - C30: numeric comparisons.
-/

namespace Aql

open Spec

variable {E : Env} {f : List Str} {m m1 m2 m3 : Matcher} {pos pos' pos'' : Pos} {d : Json} {op : Op}

/-- A numeric literal. -/
def Numeric (v : Val) : Prop := typeOf v = .int ∨ typeOf v = .float

theorem Numeric.lit {v : Val} (h : Numeric v) : ∃ c, NumLit v c := by
  cases v with
  | int i sv p => exact ⟨_, .int⟩
  | float x p => exact ⟨_, .float⟩
  | _ => rcases h with h | h <;> cases h

theorem numLit_numeric {v : Val} {c : F64} (h : NumLit v c) : Numeric v := by
  cases h
  · exact .inl rfl
  · exact .inr rfl

/-- One of `<`, `<=`, `>`, `>=`. -/
def OrderOp (op : Op) : Prop := op = .LT ∨ op = .LTE ∨ op = .GT ∨ op = .GTE

/-! ### C28 -/

/-- **C28.** `f:<v`, `<=`, `>`, `>=` with a numeric literal. -/
theorem C28_order {v : Val} (hop : OrderOp op) (hv : Numeric v)
    (h : Ready E (.expr op f [v] pos) m) (hp : Plain d f) :
    Accepts E m d ↔ ∃ s x c, ScalarUnder E d f s ∧ NumberOf E s x ∧ NumLit v c ∧ FRel op x c := by
  have hcmp : ∀ s, CmpHolds E op v s ↔ ∃ x c, NumberOf E s x ∧ NumLit v c ∧ FRel op x c := by
    intro s
    constructor
    · rintro (h | ⟨_, _, _, _, _, _, rfl, _⟩)
      · exact h
      · rcases hv with hv | hv <;> cases hv
    · exact .inl
  have : Sat E d (.expr op f [v] pos) ↔ ∃ s, ScalarUnder E d f s ∧ CmpHolds E op v s := by
    rcases hop with rfl | rfl | rfl | rfl <;> simp [Sat]
  rw [h.accepts hp, this]
  simp only [hcmp]
  constructor
  · rintro ⟨s, h1, x, c, h2⟩; exact ⟨s, x, c, h1, h2⟩
  · rintro ⟨s, x, c, h1, h2⟩; exact ⟨s, h1, x, c, h2⟩

/-- **C28.** `f:v` with a numeric literal. -/
theorem C28_equal {v : Val} (hv : Numeric v) (h : Ready E (.expr .EQ f [v] pos) m)
    (hp : Plain d f) :
    Accepts E m d ↔ ∃ s x c, ScalarUnder E d f s ∧ NumberOf E s x ∧ NumLit v c ∧ FEq x c := by
  have heq : ∀ s, EqHolds E v s ↔ ∃ x c, NumberOf E s x ∧ NumLit v c ∧ FEq x c := by
    intro s
    cases v with
    | int i sv p => rfl
    | float x p => rfl
    | _ => rcases hv with hv | hv <;> cases hv
  rw [h.accepts hp]
  simp only [Sat, List.mem_singleton, exists_eq_left, heq]
  constructor
  · rintro ⟨s, h1, x, c, h2⟩; exact ⟨s, x, c, h1, h2⟩
  · rintro ⟨s, x, c, h1, h2⟩; exact ⟨s, h1, x, c, h2⟩

/-- **C28.** `f:><(a,b)` with numeric literals; both ends are included. -/
theorem C28_between {a b : Val} (ha : Numeric a) (hb : Numeric b)
    (h : Ready E (.expr .BET f [a, b] pos) m) (hp : Plain d f) :
    Accepts E m d ↔ ∃ s x lo hi, ScalarUnder E d f s ∧ NumberOf E s x ∧ NumLit a lo ∧ NumLit b hi ∧
      FLe lo x ∧ FLe x hi := by
  have hbound : ∀ c, BoundLit b c ↔ NumLit b c := by
    intro c
    constructor
    · rintro (h | ⟨h, -⟩)
      · exact h
      · obtain ⟨c', hc'⟩ := hb.lit; exact absurd hc' (h c')
    · exact .inl
  rw [h.accepts hp]
  simp only [Sat]
  constructor
  · rintro ⟨a', b', he, s, hs, hh⟩
    simp only [List.cons.injEq, and_true] at he
    obtain ⟨rfl, rfl⟩ := he
    rcases hh with ⟨x, lo, hi, h1, h2, h3, h4⟩ | ⟨_, _, _, _, _, _, _, _, _, _, _, rfl, _⟩
    · exact ⟨s, x, lo, hi, hs, h1, h2, (hbound hi).1 h3, h4⟩
    · rcases ha with h | h <;> cases h
  · rintro ⟨s, x, lo, hi, hs, h1, h2, h3, h4⟩
    exact ⟨a, b, rfl, s, hs, .inl ⟨x, lo, hi, h1, h2, .inl h3, h4⟩⟩

theorem readAs_unique {raw : Str} {f g : F64} (h : ReadAs E raw f) (h' : ReadAs E raw g) : f = g := by
  rw [← parseFloat_iff] at h h'
  exact Option.some.inj (h.symm.trans h')

theorem readAs_decimal {raw : Str} {q : ℚ} (h : DecText raw q) (g : F64) :
    ReadAs E raw g ↔ ∃ x, RoundsTo q x ∧ |x| < 2 ^ (1024 : ℤ) ∧ g = .fin x := by
  constructor
  · intro hg
    cases hg with
    | decimal h1 h2 h3 =>
      have := ((decimalValue_iff raw q).2 h).symm.trans ((decimalValue_iff raw _).2 h1)
      cases this
      exact ⟨_, h2, h3, rfl⟩
    | exact h1 => exact absurd h (h1 q)
    | special h1 => exact absurd h (h1 q)
  · rintro ⟨x, h1, h2, rfl⟩
    exact .decimal h h1 h2

/-- **C28.** The double that the matcher reads from decimal text (a JSON number, or a string spelling one) is the denoted
number rounded to nearest, ties to even; text whose rounded value is 2^1024 or more has none. -/
theorem C28_reading {raw : Str} {q : ℚ} (h : DecText raw q) (s : Json)
    (hs : s = .num raw ∨ s = .str raw) (g : F64) :
    getNumberVal E s = some g ↔ ∃ x, RoundsTo q x ∧ |x| < 2 ^ (1024 : ℤ) ∧ g = .fin x := by
  rw [← readAs_decimal (E := E) h, ← parseFloat_iff]
  rcases hs with rfl | rfl <;> rfl

theorem numberOf_decimal {raw : Str} {q : ℚ} (h : DecText raw q) (s : Json)
    (hs : s = .num raw ∨ s = .str raw) (g : F64) :
    NumberOf E s g ↔ ∃ x, RoundsTo q x ∧ |x| < 2 ^ (1024 : ℤ) ∧ g = .fin x := by
  rw [← getNumberVal_iff]
  exact C28_reading h s hs g

/-- **C28.** The double of an integer literal (64-bit) is the integer rounded to nearest even. -/
theorem C28_integer_literal {i : ℤ} {sv : Str} {p : Pos} (hi : |i| ≤ 2 ^ 63) (c : F64) :
    NumLit (.int i sv p) c ↔ ∃ x, RoundsTo i x ∧ c = .fin x := by
  simp only [roundsTo_iff, exists_eq_left]
  rw [← toF64_int hi]
  constructor
  · intro h; cases h; rfl
  · rintro rfl; exact .int

/-- **C28.** The double of a float literal written in decimal. -/
theorem C28_float_literal {b : Str} {q : ℚ} {p : Pos} {v : Val} (h : DecText b q)
    (hv : newFloatVal E b p = some v) (c : F64) :
    NumLit v c ↔ ∃ x, RoundsTo q x ∧ c = .fin x := by
  unfold newFloatVal at hv
  split at hv
  · cases hv
  · cases hv
  · rename_i g hne hg
    cases hv
    have := (readAs_decimal (E := E) h g).1 ((parseFloat_iff E b g).1 hg)
    obtain ⟨x, hx, -, rfl⟩ := this
    constructor
    · intro h; cases h; exact ⟨x, hx, rfl⟩
    · rintro ⟨y, hy, rfl⟩
      rw [hx.unique hy]; exact .float

/-- **C28.** Scalars that are not a number match nothing: a number is required. -/
theorem C28_not_a_number {v : Val} (hop : OrderOp op) (hv : Numeric v)
    (h : Ready E (.expr op f [v] pos) m) (hp : Plain d f)
    (hn : ∀ s x, ScalarUnder E d f s → ¬ NumberOf E s x) : ¬ Accepts E m d := by
  rw [C28_order hop hv h hp]
  rintro ⟨s, x, c, hs, hx, _⟩
  exact hn s x hs hx

/-! ### Examples used below -/

theorem lt_big {x : ℚ} (h : x ≤ 2 ^ (53 : ℕ)) : x < 2 ^ (1024 : ℤ) := by
  have : (2 : ℚ) ^ (53 : ℤ) < 2 ^ (1024 : ℤ) := zpow_lt_zpow_right₀ (by norm_num) (by norm_num)
  rw [show (53 : ℤ) = ((53 : ℕ) : ℤ) by norm_num, zpow_natCast] at this
  exact h.trans_lt this

theorem noLit {vs : List Val} (h : ∀ v ∈ vs, Numeric v) : FromGrammar (.expr op f vs pos) := by
  refine ⟨trivial, fun v hv => ?_⟩
  rcases h v hv with h | h <;> cases v <;> trivial

/-- A comparison with one integer literal always compiles. -/
theorem ready_int (E : Env) (op : Op) (hop : OrderOp op ∨ op = .EQ) (f : List Str) (i : ℤ) (sv : Str)
    (hsv : sv ≠ "true".toList) :
    ∃ m, Ready E (.expr op f [.int i sv noPosition] noPosition) m := by
  refine ready_of_allOk ⟨?_, ?_, ?_, ?_, ?_⟩ (noLit (by simp [Numeric, Val.type])) (by simp [LitsIn, ReParses])
  · rcases hop with (rfl | rfl | rfl | rfl) | rfl <;> simp [ArityOk]
  · intro v hv
    simp only [List.mem_singleton] at hv; subst hv
    rcases hop with (rfl | rfl | rfl | rfl) | rfl <;> simp [OperandOk, Val.type]
  · simp
  · rintro - ⟨h, -⟩
    simp only [List.map_cons, List.map_nil, List.mem_singleton, Val.toStr] at h
    exact hsv h.symm
  · intro a b h
    rcases hop with (rfl | rfl | rfl | rfl) | rfl <;> cases h

/-- The document with one member. -/
theorem single_resolves {raw k : Str} (hk : E.unescape raw = some k) (s v : Json) :
    Resolves E (.obj [(raw, s)]) [k] v ↔ v = s := by
  constructor
  · intro h
    cases h with
    | last h =>
      obtain ⟨pre, raw', post, he, _, _⟩ := h
      cases pre with
      | nil => simp at he; exact he.1.2.symm
      | cons p pre => simp at he
  · rintro rfl; exact .last ⟨[], raw, [], rfl, hk, by simp⟩

theorem single_scalar {raw k : Str} (hk : E.unescape raw = some k) {s : Json} (hs : IsScalar s)
    (v : Json) : ScalarUnder E (.obj [(raw, s)]) [k] v ↔ v = s := by
  constructor
  · rintro ⟨_, h | ⟨items, h, _⟩⟩
    · exact (single_resolves hk s v).1 h
    · have := (single_resolves hk s _).1 h
      subst this; exact absurd hs (by simp [IsScalar])
  · rintro rfl; exact ⟨hs, .inl ((single_resolves hk _ _).2 rfl)⟩

theorem single_num {raw k : Str} (hk : E.unescape raw = some k) (t : Str) (v : Json) :
    ScalarUnder E (.obj [(raw, .num t)]) [k] v ↔ v = .num t :=
  single_scalar hk (s := .num t) trivial v

theorem plain_single {k : Str} {ms : List (Str × Json)} : Plain (.obj ms) [k] :=
  ⟨k, [], rfl, by simp⟩

-- a query with hypotheses of C28: `a:<10`, and a document that satisfies it, in every environment
example (hk : E.unescape "a".toList = some "a".toList) : ∃ m,
    Ready E (.expr .LT ["a".toList] [.int 10 "10".toList noPosition] noPosition) m ∧
    Accepts E m (.obj [("a".toList, .num "9.5e0".toList)]) := by
  obtain ⟨m, hm⟩ := ready_int E .LT (.inl (.inl rfl)) ["a".toList] 10 "10".toList (by decide)
  refine ⟨m, hm, ?_⟩
  rw [C28_order (.inl rfl) (.inl rfl) hm plain_single]
  have h95 : DecText "9.5e0".toList (19 / 2) := by
    rw [← decimalValue_iff]; decide +kernel
  refine ⟨.num "9.5e0".toList, .fin (19 / 2), _, (single_num hk _ _).2 rfl, ?_, .int, ?_⟩
  · rw [numberOf_decimal h95 _ (.inl rfl)]
    exact ⟨_, (roundsTo_iff _ _).2 (by decide +kernel), lt_big (by rw [abs_of_pos (by norm_num)]; norm_num), rfl⟩
  · rw [FRel, ← F64.lt_iff]; decide +kernel

/-! ### C29 -/

/-- **C29, the part that holds.** On integers up to 2^53 in magnitude, equality is equality of
integers. Missing: larger integers, see `C29_integer_equality_refuted`. -/
theorem C29_integer_equality_partial {n : ℤ} {sv : Str} {p : Pos} (hn : |n| ≤ 2 ^ 53)
    (h : Ready E (.expr .EQ f [.int n sv p] pos) m) (hp : Plain d f)
    (hd : ∀ s, ScalarUnder E d f s → ∃ raw k, s = .num raw ∧ DecText raw ((k : ℤ) : ℚ) ∧ |k| ≤ 2 ^ 53) :
    Accepts E m d ↔ ∃ raw, ScalarUnder E d f (.num raw) ∧ DecText raw (n : ℚ) := by
  have hbig : ∀ k : ℤ, |k| ≤ 2 ^ 53 → |(k : ℚ)| < 2 ^ (1024 : ℤ) := by
    intro k hk
    exact lt_big (by exact_mod_cast hk)
  have hr : ∀ k : ℤ, |k| ≤ 2 ^ 53 → RoundsTo (k : ℚ) (k : ℚ) := by
    intro k hk; rw [roundsTo_iff, roundQ_small_int hk]
  rw [C28_equal (.inl rfl) h hp]
  constructor
  · rintro ⟨s, x, c, hs, hx, hc, he⟩
    obtain ⟨raw, k, rfl, hk, hk'⟩ := hd s hs
    refine ⟨raw, hs, ?_⟩
    rw [numberOf_decimal hk _ (.inl rfl)] at hx
    obtain ⟨y, hy, -, rfl⟩ := hx
    rw [C28_integer_literal (hn.trans (by norm_num))] at hc
    obtain ⟨z, hz, rfl⟩ := hc
    rw [hy.unique (hr k hk'), hz.unique (hr n hn)] at he
    obtain ⟨w, h1, h2⟩ := he
    simp only [place, Option.some.injEq] at h1 h2
    rw [← h1] at h2
    simp only [Prod.mk.injEq, true_and, Int.cast_inj] at h2
    rw [h2]; exact hk
  · rintro ⟨raw, hs, hraw⟩
    refine ⟨.num raw, .fin n, .fin n, hs, ?_, ?_, ⟨_, rfl, rfl⟩⟩
    · rw [numberOf_decimal hraw _ (.inl rfl)]
      exact ⟨n, hr n hn, hbig n hn, rfl⟩
    · rw [C28_integer_literal (hn.trans (by norm_num))]
      exact ⟨n, hr n hn, rfl⟩

example (hk : E.unescape "a".toList = some "a".toList) : ∃ m,
    Ready E (.expr .EQ ["a".toList] [.int 7 "7".toList noPosition] noPosition) m ∧
    Accepts E m (.obj [("a".toList, .num "7".toList)]) ∧
    ¬ Accepts E m (.obj [("a".toList, .num "8".toList)]) := by
  obtain ⟨m, hm⟩ := ready_int E .EQ (.inr rfl) ["a".toList] 7 "7".toList (by decide)
  have h7 : DecText "7".toList ((7 : ℤ) : ℚ) := by rw [← decimalValue_iff]; decide +kernel
  have h8 : DecText "8".toList ((8 : ℤ) : ℚ) := by rw [← decimalValue_iff]; decide +kernel
  refine ⟨m, hm, ?_, ?_⟩
  · rw [C29_integer_equality_partial (by norm_num) hm plain_single]
    · exact ⟨_, (single_num hk _ _).2 rfl, h7⟩
    · intro s hs
      rw [single_num hk] at hs
      exact ⟨_, 7, hs, h7, by norm_num⟩
  · rw [C29_integer_equality_partial (by norm_num) hm plain_single]
    · rintro ⟨raw, hs, hr⟩
      rw [single_num hk, Json.num.injEq] at hs
      subst hs
      rw [← decimalValue_iff] at hr h8
      rw [h8] at hr; norm_num at hr
    · intro s hs
      rw [single_num hk] at hs
      exact ⟨_, 8, hs, h8, by norm_num⟩

/-- **C29 (exact).** An integer literal matches exactly the numerals that round to the same double as
the literal; nothing else about them matters. -/
theorem C29_integer_equality_exact {n : ℤ} {sv : Str} {p : Pos} (hn : |n| ≤ 2 ^ 63)
    (h : Ready E (.expr .EQ f [.int n sv p] pos) m) (hp : Plain d f)
    (hd : ∀ s, ScalarUnder E d f s → ∃ raw q, s = .num raw ∧ DecText raw q) :
    Accepts E m d ↔ ∃ raw q x, ScalarUnder E d f (.num raw) ∧ DecText raw q ∧
      RoundsTo (n : ℚ) x ∧ RoundsTo q x := by
  rw [C28_equal (.inl rfl) h hp]
  constructor
  · rintro ⟨s, x, c, hs, hx, hc, he⟩
    obtain ⟨raw, q, rfl, hq⟩ := hd s hs
    rw [numberOf_decimal hq _ (.inl rfl)] at hx
    obtain ⟨y, hy, -, rfl⟩ := hx
    rw [C28_integer_literal hn] at hc
    obtain ⟨z, hz, rfl⟩ := hc
    obtain ⟨w, h1, h2⟩ := he
    simp only [place, Option.some.injEq] at h1 h2
    rw [← h1] at h2
    simp only [Prod.mk.injEq, true_and] at h2
    subst h2
    exact ⟨raw, q, _, hs, hq, hz, hy⟩
  · rintro ⟨raw, q, x, hs, hq, hn', hx⟩
    refine ⟨.num raw, .fin x, .fin x, hs, ?_, (C28_integer_literal hn _).2 ⟨x, hn', rfl⟩, ⟨_, rfl, rfl⟩⟩
    rw [numberOf_decimal hq _ (.inl rfl)]
    refine ⟨x, hx, ?_, rfl⟩
    rw [roundsTo_iff] at hn'
    have := toF64_int hn
    unfold toF64 at this
    rw [hn']
    by_contra hbig
    dsimp only at this
    rw [if_pos (not_lt.1 hbig)] at this
    cases this

/-- **C29, refuted beyond 2^53.** In every environment the query `a:9007199254740992` matches the
document `{"a": 9007199254740993}`. -/
theorem C29_integer_equality_refuted (hk : E.unescape "a".toList = some "a".toList) :
    ∃ m, Ready E (.expr .EQ ["a".toList]
        [.int 9007199254740992 "9007199254740992".toList noPosition] noPosition) m ∧
      Accepts E m (.obj [("a".toList, .num "9007199254740993".toList)]) ∧
      DecText "9007199254740993".toList 9007199254740993 := by
  obtain ⟨m, hm⟩ := ready_int E .EQ (.inr rfl) ["a".toList] 9007199254740992
    "9007199254740992".toList (by decide +kernel)
  have hd : DecText "9007199254740993".toList 9007199254740993 := by
    rw [← decimalValue_iff]; decide +kernel
  refine ⟨m, hm, ?_, hd⟩
  rw [C28_equal (.inl rfl) hm plain_single]
  refine ⟨_, _, _, (single_num hk _ _).2 rfl,
    (numberOf_decimal hd _ (.inl rfl) _).2 ⟨9007199254740992, ?_, ?_, rfl⟩, .int, ?_⟩
  · rw [roundsTo_iff]; decide +kernel
  · exact lt_big (by rw [abs_of_pos (by norm_num)]; norm_num)
  · rw [← F64.eq_iff]; decide +kernel

/-! ### C30 -/

theorem Before.trans' {a b c : ℤ × ℚ} (h1 : Before a b) (h2 : Before b c) : Before a c := by
  rcases h1 with h1 | ⟨h1, h1'⟩ <;> rcases h2 with h2 | ⟨h2, h2'⟩
  · exact .inl (h1.trans h2)
  · exact .inl (by omega)
  · exact .inl (by omega)
  · exact .inr ⟨by omega, h1'.trans h2'⟩

theorem Before.irrefl' (a : ℤ × ℚ) : ¬ Before a a := by
  rintro (h | ⟨_, h⟩)
  · omega
  · exact lt_irrefl _ h

theorem Before.total' (a b : ℤ × ℚ) : Before a b ∨ a = b ∨ Before b a := by
  obtain ⟨a1, a2⟩ := a
  obtain ⟨b1, b2⟩ := b
  rcases lt_trichotomy a1 b1 with h | h | h
  · exact .inl (.inl h)
  · rcases lt_trichotomy a2 b2 with h' | h' | h'
    · exact .inl (.inr ⟨h, h'⟩)
    · exact .inr (.inl (by rw [h, h']))
    · exact .inr (.inr (.inr ⟨h.symm, h'⟩))
  · exact .inr (.inr (.inl h))

theorem Spec.FLt.trans {a b c : F64} (h1 : FLt a b) (h2 : FLt b c) : FLt a c := by
  obtain ⟨x, y, hx, hy, h⟩ := h1
  obtain ⟨y', z, hy', hz, h'⟩ := h2
  rw [hy] at hy'; cases hy'
  exact ⟨x, z, hx, hz, Before.trans' h h'⟩

theorem Spec.FLe.trans_lt {a b c : F64} (h1 : FLe a b) (h2 : FLt b c) : FLt a c := by
  rcases h1 with h1 | ⟨x, hx, hy⟩
  · exact h1.trans h2
  · obtain ⟨y', z, hy', hz, h'⟩ := h2
    rw [hy] at hy'; cases hy'
    exact ⟨x, z, hx, hz, h'⟩

theorem Spec.FLt.trans_le {a b c : F64} (h1 : FLt a b) (h2 : FLe b c) : FLt a c := by
  rcases h2 with h2 | ⟨x, hx, hy⟩
  · exact h1.trans h2
  · obtain ⟨y', z, hy', hz, h'⟩ := h1
    rw [hx] at hz; cases hz
    exact ⟨y', x, hy', hy, h'⟩

theorem Spec.FLe.trans {a b c : F64} (h1 : FLe a b) (h2 : FLe b c) : FLe a c := by
  rcases h1 with h1 | ⟨x, hx, hy⟩
  · exact .inl (h1.trans_le h2)
  · rcases h2 with h2 | ⟨y, hy', hz⟩
    · exact .inl (Spec.FLe.trans_lt (.inr ⟨x, hx, hy⟩) h2)
    · rw [hy] at hy'; cases hy'
      exact .inr ⟨x, hx, hz⟩

theorem Spec.NumberOf.unique {s : Json} {a b : F64} (h1 : NumberOf E s a) (h2 : NumberOf E s b) :
    a = b := by
  cases h1 with
  | num h => cases h2 with | num h' => exact readAs_unique h h'
  | str h => cases h2 with | str h' => exact readAs_unique h h'

/-- The bound `b` is at least as permissive as `a` for the operator. -/
def Looser (op : Op) (cb ca : F64) : Prop :=
  match op with
  | .GT | .GTE => FLe cb ca
  | .LT | .LTE => FLe ca cb
  | _ => False

/-- **C30.** Raising the bound of `<`, `<=` or lowering that of `>`, `>=` keeps all matches. -/
theorem C30_monotone {a b : Val} {ca cb : F64} (hop : OrderOp op)
    (ha : NumLit a ca) (hb : NumLit b cb) (hl : Looser op cb ca)
    (h1 : Ready E (.expr op f [a] pos) m1) (h2 : Ready E (.expr op f [b] pos') m2)
    (hp : Plain d f) (h : Accepts E m1 d) : Accepts E m2 d := by
  rw [C28_order hop (numLit_numeric ha) h1 hp] at h
  rw [C28_order hop (numLit_numeric hb) h2 hp]
  obtain ⟨s, x, c, hs, hx, hc, hr⟩ := h
  rw [hc.unique ha] at hr
  refine ⟨s, x, cb, hs, hx, hb, ?_⟩
  rcases hop with rfl | rfl | rfl | rfl
  · exact Spec.FLt.trans_le hr hl
  · exact Spec.FLe.trans hr hl
  · exact Spec.FLe.trans_lt hl hr
  · exact Spec.FLe.trans hl hr

/-- **C30.** Rounding keeps the order, so for integer literals the bounds compare as integers. -/
theorem C30_integer_bounds {i j : ℤ} {si sj : Str} {p p' : Pos} (hi : |i| ≤ 2 ^ 63)
    (hj : |j| ≤ 2 ^ 63) (h : i ≤ j) :
    ∃ a b, NumLit (.int i si p) a ∧ NumLit (.int j sj p') b ∧ FLe a b := by
  refine ⟨_, _, .int, .int, ?_⟩
  rw [toF64_int hi, toF64_int hj]
  rcases lt_or_eq_of_le (roundQ_mono (p := (i : ℚ)) (q := (j : ℚ)) (by exact_mod_cast h)) with h | h
  · exact .inl ⟨_, _, rfl, rfl, .inr ⟨rfl, h⟩⟩
  · exact .inr ⟨_, rfl, by rw [h]; rfl⟩

/-- **C30.** `<` implies `<=` and `>` implies `>=`. -/
theorem C30_strict_implies_nonstrict {v : Val} (hv : Numeric v)
    (hop : (op = .LT ∧ op' = .LTE) ∨ (op = .GT ∧ op' = .GTE))
    (h1 : Ready E (.expr op f [v] pos) m1) (h2 : Ready E (.expr op' f [v] pos') m2)
    (hp : Plain d f) (h : Accepts E m1 d) : Accepts E m2 d := by
  rcases hop with ⟨rfl, rfl⟩ | ⟨rfl, rfl⟩
  · rw [C28_order (.inl rfl) hv h1 hp] at h
    rw [C28_order (.inr (.inl rfl)) hv h2 hp]
    obtain ⟨s, x, c, hs, hx, hc, hr⟩ := h
    exact ⟨s, x, c, hs, hx, hc, .inl hr⟩
  · rw [C28_order (.inr (.inr (.inl rfl))) hv h1 hp] at h
    rw [C28_order (.inr (.inr (.inr rfl))) hv h2 hp]
    obtain ⟨s, x, c, hs, hx, hc, hr⟩ := h
    exact ⟨s, x, c, hs, hx, hc, .inl hr⟩

/-- **C30.** `><(a,b)` implies `>=a` and `<=b`. -/
theorem C30_between_implies_bounds {a b : Val} (ha : Numeric a) (hb : Numeric b)
    (h : Ready E (.expr .BET f [a, b] pos) m) (h1 : Ready E (.expr .GTE f [a] pos') m1)
    (h2 : Ready E (.expr .LTE f [b] pos'') m2) (hp : Plain d f) (hm : Accepts E m d) :
    Accepts E m1 d ∧ Accepts E m2 d := by
  rw [C28_between ha hb h hp] at hm
  rw [C28_order (.inr (.inr (.inr rfl))) ha h1 hp, C28_order (.inr (.inl rfl)) hb h2 hp]
  obtain ⟨s, x, lo, hi, hs, hx, hlo, hhi, h3, h4⟩ := hm
  exact ⟨⟨s, x, lo, hs, hx, hlo, h3⟩, ⟨s, x, hi, hs, hx, hhi, h4⟩⟩

/-- **C30.** On a document with exactly one scalar under the field, a number `x` that is not NaN,
exactly one of `<v`, `:v`, `>v` matches. -/
theorem C30_trichotomy {v : Val} {s : Json} {x c : F64} (hc : NumLit v c) (hcn : c ≠ .nan)
    (hs : ∀ t, ScalarUnder E d f t ↔ t = s) (hx : NumberOf E s x) (hxn : x ≠ .nan)
    (h1 : Ready E (.expr .LT f [v] pos) m1) (h2 : Ready E (.expr .EQ f [v] pos') m2)
    (h3 : Ready E (.expr .GT f [v] pos'') m3) (hp : Plain d f) :
    (Accepts E m1 d ∧ ¬ Accepts E m2 d ∧ ¬ Accepts E m3 d) ∨
    (¬ Accepts E m1 d ∧ Accepts E m2 d ∧ ¬ Accepts E m3 d) ∨
    (¬ Accepts E m1 d ∧ ¬ Accepts E m2 d ∧ Accepts E m3 d) := by
  have hv := numLit_numeric hc
  have hred : ∀ R : F64 → F64 → Prop,
      (∃ t y c', ScalarUnder E d f t ∧ NumberOf E t y ∧ NumLit v c' ∧ R y c') ↔ R x c := by
    intro R
    constructor
    · rintro ⟨t, y, c', ht, hy, hc', hr⟩
      rw [hs] at ht; subst ht
      rwa [hy.unique hx, hc'.unique hc] at hr
    · intro hr; exact ⟨s, x, c, (hs s).2 rfl, hx, hc, hr⟩
  rw [C28_order (.inl rfl) hv h1 hp, C28_equal hv h2 hp, C28_order (.inr (.inr (.inl rfl))) hv h3 hp,
    hred, hred, hred]
  have hp : ∀ y : F64, y ≠ .nan → ∃ w, place y = some w := by
    intro y hy
    rcases y with _ | (_ | _) | q
    · exact absurd rfl hy
    all_goals exact ⟨_, rfl⟩
  obtain ⟨a, ha⟩ := hp x hxn
  obtain ⟨b, hb⟩ := hp c hcn
  have e1 : FRel .LT x c ↔ Before a b := by simp [FRel, FLt, ha, hb]
  have e2 : FEq x c ↔ a = b := by simp [FEq, ha, hb, eq_comm]
  have e3 : FRel .GT x c ↔ Before b a := by simp [FRel, FLt, ha, hb]
  rw [e1, e2, e3]
  rcases Before.total' a b with h | h | h
  · left
    exact ⟨h, fun e => Before.irrefl' b (e ▸ h), fun h' => Before.irrefl' a (Before.trans' h h')⟩
  · right; left; subst h
    exact ⟨Before.irrefl' a, rfl, Before.irrefl' a⟩
  · right; right
    exact ⟨fun h' => Before.irrefl' a (Before.trans' h' h), fun e => Before.irrefl' b (e ▸ h), h⟩

-- the hypotheses of the trichotomy are met by `{"a": 1}` and the literal 10
example (hk : E.unescape "a".toList = some "a".toList) :
    (∀ t, ScalarUnder E (.obj [("a".toList, .num "1".toList)]) ["a".toList] t ↔ t = .num "1".toList) ∧
    NumberOf E (.num "1".toList) (.fin 1) ∧
    (∃ m1, Ready E (.expr .LT ["a".toList] [.int 10 "10".toList noPosition] noPosition) m1) ∧
    (∃ m2, Ready E (.expr .EQ ["a".toList] [.int 10 "10".toList noPosition] noPosition) m2) ∧
    (∃ m3, Ready E (.expr .GT ["a".toList] [.int 10 "10".toList noPosition] noPosition) m3) := by
  refine ⟨single_num hk _, .num ?_, ready_int E _ (by simp [OrderOp]) _ _ _ (by decide),
    ready_int E _ (by simp) _ _ _ (by decide), ready_int E _ (by simp [OrderOp]) _ _ _ (by decide)⟩
  rw [← parseFloat_iff]
  unfold parseFloat
  have : decimalValue "1".toList = some 1 := by decide +kernel
  rw [this]
  dsimp only
  have : toF64 1 = .fin 1 := by decide +kernel
  rw [this]

end Aql
