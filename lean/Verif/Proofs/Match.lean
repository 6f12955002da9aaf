import Verif.Model.Matcher
import Verif.Spec.Query
import Verif.Proofs.Values
import Verif.Proofs.FormatText
import Verif.Proofs.Net
import Verif.Proofs.Glob
/-! The matcher refines the declarative meaning of queries. -/

namespace Aql

open Spec

variable (E : Env)

/-! ### resolution, all documents -/

theorem getField_spec (d : Json) (path : List Str) (h : Plain d path) :
    ∃ vs, getField E path d = .ok vs ∧ ∀ v, v ∈ vs ↔ Resolves E d path v := by
  obtain ⟨k, rest, rfl, hk⟩ := h
  have hnone : d.isObj = false → ∀ v, ¬ Resolves E d (k :: rest) v := by
    intro hd v hr; cases hr <;> simp [Json.isObj] at hd
  cases d with
  | obj ms => exact getObject_spec E (k :: rest) ms (by simp)
  | arr items =>
    obtain ⟨c, s, rfl, hc⟩ := hk ⟨_, rfl⟩
    refine ⟨[], ?_, fun v => by simpa using hnone rfl v⟩
    simp only [getField, getObject, jsonGet]
    split
    · rename_i e he
      split at he
      · rename_i h; cases h
      · rename_i s' h; simp at h; exact absurd h.1 hc
      · cases he
    · rfl
    · rename_i w he
      split at he
      · rename_i h; cases h
      · rename_i s' h; simp at h; exact absurd h.1 hc
      · cases he
  | _ => exact ⟨[], rfl, fun v => by simpa using hnone rfl v⟩

theorem scalars_spec {d : Json} {path : List Str} {vs : List Json}
    (h : ∀ v, v ∈ vs ↔ Resolves E d path v) (s : Json) :
    s ∈ scalarValues vs ↔ ScalarUnder E d path s := by
  rw [scalarValues_mem]
  simp only [h, ScalarUnder]

/-! ### scalars -/

theorem toF64_rounds {q x : ℚ} : toF64 q = .fin x ↔ RoundsTo q x ∧ |x| < 2 ^ (1024 : ℤ) := by
  rw [toF64_fin, roundsTo_iff, eq_comm]

theorem toF64_inRange {q : ℚ} {f : F64} :
    (match toF64 q with
      | .inf _ => none
      | f => some f) = some f ↔ ∃ x, f = .fin x ∧ RoundsTo q x ∧ |x| < 2 ^ (1024 : ℤ) := by
  cases hq : toF64 q with
  | nan => unfold toF64 at hq; dsimp only at hq; split at hq <;> cases hq
  | inf b =>
    constructor
    · intro h; cases h
    · rintro ⟨x, -, h⟩
      rw [toF64_rounds.2 h] at hq; cases hq
  | fin y =>
    constructor
    · intro h; cases h; exact ⟨y, rfl, toF64_rounds.1 hq⟩
    · rintro ⟨x, rfl, h⟩
      rw [toF64_rounds.2 h] at hq; cases hq; rfl

theorem parseFloat_iff (raw : Str) (f : F64) : parseFloat E raw = some f ↔ ReadAs E raw f := by
  unfold parseFloat
  cases hd : decimalValue raw with
  | some q =>
    have hq := (decimalValue_iff raw q).1 hd
    dsimp only
    refine Iff.trans (toF64_inRange (q := q) (f := f)) ?_
    constructor
    · rintro ⟨x, rfl, h1, h2⟩; exact .decimal hq h1 h2
    · intro h
      cases h with
      | decimal h1 h2 h3 =>
        have := (decimalValue_iff raw _).2 h1
        rw [hd] at this; cases this
        exact ⟨_, rfl, h2, h3⟩
      | exact h1 => exact absurd hq (h1 q)
      | special h1 => exact absurd hq (h1 q)
  | none =>
    have hn : ∀ q, ¬ DecText raw q := fun q hq => by
      have := (decimalValue_iff raw q).2 hq
      rw [hd] at this; cases this
    have other : ∀ r : Option F64, E.parseFloatOther raw = r → (∀ q, r ≠ some (.fin q)) → (r = some f ↔ ReadAs E raw f) := by
      intro r hr hne
      constructor
      · rintro rfl
        exact .special hn hr fun x hx => hne x (by rw [hx])
      · intro h
        cases h with
        | decimal h1 => exact absurd h1 (hn _)
        | exact _ h2 => exact absurd (hr.symm.trans h2) (hne _)
        | special _ h2 => exact hr.symm.trans h2
    dsimp only
    generalize hr : E.parseFloatOther raw = r
    match r, hr with
    | some (.fin q), hr =>
      dsimp only
      refine Iff.trans (toF64_inRange (q := q) (f := f)) ?_
      constructor
      · rintro ⟨x, rfl, h1, h2⟩; exact .exact hn hr h1 h2
      · intro h
        cases h with
        | decimal h1 => exact absurd h1 (hn _)
        | exact _ h2 h3 h4 => rw [hr] at h2; cases h2; exact ⟨_, rfl, h3, h4⟩
        | special _ h2 h3 => rw [hr] at h2; cases h2; exact absurd rfl (h3 q)
    | none, hr => exact other _ hr (by simp)
    | some .nan, hr => exact other _ hr (by simp)
    | some (.inf b), hr => exact other _ hr (by simp)

theorem readAs_double {raw : Str} {x : ℚ} (h : ReadAs E raw (.fin x)) : IsDouble x := by
  cases h with
  | decimal _ h2 h3 => exact ⟨h2.1.1, h3⟩
  | exact _ _ h2 h3 => exact ⟨h2.1.1, h3⟩
  | special _ _ h => exact absurd rfl (h x)

theorem getNumberVal_iff (s : Json) (f : F64) : getNumberVal E s = some f ↔ NumberOf E s f := by
  constructor
  · intro h
    cases s with
    | num raw => exact .num ((parseFloat_iff E raw f).1 h)
    | str raw => exact .str ((parseFloat_iff E raw f).1 h)
    | _ => cases h
  · intro h
    cases h with
    | num h => exact (parseFloat_iff E _ f).2 h
    | str h => exact (parseFloat_iff E _ f).2 h

theorem isNegZero_iff (raw : Str) (f : F64) : isNegZero raw f = true ↔ f = .fin 0 ∧ ∃ t, raw = '-' :: t := by
  unfold isNegZero
  cases raw <;> simp

theorem getStringVal_iff (s : Json) (t : Str) : getStringVal E s = some t ↔ TextOf E s t := by
  constructor
  · intro h
    cases s with
    | num raw =>
      simp only [getStringVal] at h
      split at h
      · cases h
      · rename_i f hf
        cases h
        rw [parseFloat_iff] at hf
        exact .num hf (isNegZero_iff raw f) (formatFloat_text _ _ fun x hx => readAs_double E (hx ▸ hf))
    | str raw => exact .str h
    | _ => cases h
  · intro h
    cases h with
    | str h => exact h
    | @num raw f z t h hz ht =>
      rw [show z = isNegZero raw f from Bool.eq_iff_iff.2 (hz.trans (isNegZero_iff raw f).symm)] at ht
      simp only [getStringVal, (parseFloat_iff E raw f).2 h]
      rw [numberText_unique (formatFloat_text _ _ fun x hx => readAs_double E (hx ▸ h)) ht]

theorem wrap64_iff (x w : Int) : wrap64 x = w ↔ Int64Of x w := by
  have h1 : Int64Of x (wrap64 x) := by
    unfold Int64Of wrap64 Int.bmod
    dsimp only
    split
    · refine ⟨by omega, by omega, x / (2 ^ 64), by omega⟩
    · refine ⟨by omega, by omega, x / (2 ^ 64) + 1, by omega⟩
  constructor
  · rintro rfl; exact h1
  · rintro ⟨a, b, k, hk⟩
    obtain ⟨a', b', k', hk'⟩ := h1
    omega

theorem getDatetimeVal_iff (s : Json) (w : Int) : getDatetimeVal E s = some w ↔ NanosOf E s w := by
  unfold getDatetimeVal NanosOf
  constructor
  · intro h
    split at h
    · cases h
    · rename_i t ht
      split at h
      · cases h
      · rename_i i hi
        cases h
        exact ⟨t, i, (getStringVal_iff E s t).1 ht, hi, (wrap64_iff _ _).1 rfl⟩
  · rintro ⟨t, i, ht, hi, hw⟩
    rw [(getStringVal_iff E s t).2 ht]
    simp only [hi]
    rw [unixNano, (wrap64_iff _ _).2 hw]

theorem isASCII_iff (s : Str) : isASCII s = true ↔ ∀ c ∈ s, c.toNat < 128 := by
  simp only [isASCII, List.all_eq_true, decide_eq_true_eq]
  constructor
  · intro h c hc; have := h c hc; rw [UInt32.lt_iff_toNat_lt] at this; exact this
  · intro h c hc; rw [UInt32.lt_iff_toNat_lt]; exact h c hc

theorem hasWildcard_iff (s : Str) : hasWildcard s = true ↔ ∃ c ∈ s, c = '?' ∨ c = '*' := by
  simp [hasWildcard]

/-- A scalar test that looks at one optional reading of the scalar. -/
theorem getStringMatcher_spec (lit : Str) : ∃ e, getStringMatcher E lit = .ok e ∧
    e ≠ .exists_ ∧ e ≠ .null ∧
    ∀ s, ∃ b, e.scalarTest E s = .ok b ∧ (b = true ↔ ∃ t, TextOf E s t ∧ StrHolds E lit t) := by
  have hcond : (!isASCII lit && !hasWildcard lit) = true ↔
      ((∃ c ∈ lit, 128 ≤ c.toNat) ∧ ¬ (∃ c ∈ lit, c = '?' ∨ c = '*')) := by
    rw [Bool.and_eq_true, Bool.not_eq_true', Bool.not_eq_true', ← hasWildcard_iff,
      Bool.not_eq_true, ← Bool.not_eq_true, isASCII_iff]
    push Not
    rfl
  unfold getStringMatcher StrHolds
  by_cases hu : ((∃ c ∈ lit, 128 ≤ c.toNat) ∧ ¬ (∃ c ∈ lit, c = '?' ∨ c = '*'))
  · rw [if_pos (hcond.2 hu)]
    refine ⟨_, rfl, by simp, by simp, fun s => ?_⟩
    simp only [FieldExpr.scalarTest, if_pos hu]
    cases ht : getStringVal E s with
    | none =>
      refine ⟨false, rfl, by simp only [Bool.false_eq_true, false_iff]; rintro ⟨t, h, _⟩
                             rw [← getStringVal_iff, ht] at h; cases h⟩
    | some t =>
      refine ⟨_, rfl, ?_⟩
      constructor
      · intro h; exact ⟨t, (getStringVal_iff E s t).1 ht, h⟩
      · rintro ⟨t', h, h'⟩
        rw [← getStringVal_iff, ht] at h; cases h; exact h'
  · rw [if_neg (fun h => hu (hcond.1 h)), if_pos (reCompiles_stringSearch E lit)]
    refine ⟨_, rfl, by simp, by simp, fun s => ?_⟩
    simp only [FieldExpr.scalarTest, if_neg hu]
    cases ht : getStringVal E s with
    | none =>
      refine ⟨false, rfl, by simp only [Bool.false_eq_true, false_iff]; rintro ⟨t, h, _⟩
                             rw [← getStringVal_iff, ht] at h; cases h⟩
    | some t =>
      refine ⟨_, rfl, ?_⟩
      simp only [reMatch_stringSearch, isASCII_iff]
      constructor
      · intro h; exact ⟨t, (getStringVal_iff E s t).1 ht, h⟩
      · rintro ⟨t', h, h'⟩
        rw [← getStringVal_iff, ht] at h; cases h; exact h'

theorem float_test {v0 v1 : F64} {op : Op} {t : F64 → Bool}
    (ht : ∀ f, floatTest op v0 v1 f = .ok (t f)) (s : Json) :
    ∃ b, (FieldExpr.float v0 v1 op).scalarTest E s = .ok b ∧
      (b = true ↔ ∃ f, NumberOf E s f ∧ t f = true) := by
  simp only [FieldExpr.scalarTest]
  cases hf : getNumberVal E s with
  | none =>
    refine ⟨false, rfl, ?_⟩
    simp only [Bool.false_eq_true, false_iff]
    rintro ⟨f, h, _⟩
    rw [← getNumberVal_iff, hf] at h; cases h
  | some f =>
    refine ⟨t f, ht f, ?_⟩
    constructor
    · intro h; exact ⟨f, (getNumberVal_iff E s f).1 hf, h⟩
    · rintro ⟨f', h, h'⟩
      rw [← getNumberVal_iff, hf] at h; cases h; exact h'

theorem date_test {v0 v1 : Int} {op : Op} {t : Int → Bool}
    (ht : ∀ f, dateTest op v0 v1 f = .ok (t f)) (s : Json) :
    ∃ b, (FieldExpr.datetime v0 v1 op).scalarTest E s = .ok b ∧
      (b = true ↔ ∃ w, NanosOf E s w ∧ t w = true) := by
  simp only [FieldExpr.scalarTest]
  cases hf : getDatetimeVal E s with
  | none =>
    refine ⟨false, rfl, ?_⟩
    simp only [Bool.false_eq_true, false_iff]
    rintro ⟨f, h, _⟩
    rw [← getDatetimeVal_iff, hf] at h; cases h
  | some f =>
    refine ⟨t f, ht f, ?_⟩
    constructor
    · intro h; exact ⟨f, (getDatetimeVal_iff E s f).1 hf, h⟩
    · rintro ⟨f', h, h'⟩
      rw [← getDatetimeVal_iff, hf] at h; cases h; exact h'

theorem Spec.Int64Of.unique {x a b : Int} (h1 : Int64Of x a) (h2 : Int64Of x b) : a = b := by
  rw [← wrap64_iff] at h1 h2; rw [← h1, h2]

theorem int64Of_wrap (x : Int) : Int64Of x (wrap64 x) := (wrap64_iff _ _).1 rfl

theorem Spec.NumLit.unique {v : Val} {a b : F64} (h1 : NumLit v a) (h2 : NumLit v b) : a = b := by
  cases h1 <;> cases h2 <;> rfl

/-- The matcher of an equality literal. -/
theorem eqMatcher_spec (v : Val) (hv : LitOk v) : ∃ e, eqMatcher E v = .ok e ∧
    e ≠ .exists_ ∧ e ≠ .null ∧
    ∀ s, ∃ b, e.scalarTest E s = .ok b ∧ (b = true ↔ EqHolds E v s) := by
  cases v with
  | str lit pos => exact getStringMatcher_spec E lit
  | regex sv src pos =>
    refine ⟨_, rfl, by simp, by simp, fun s => ?_⟩
    simp only [FieldExpr.scalarTest, EqHolds]
    cases ht : getStringVal E s with
    | none =>
      refine ⟨false, rfl, ?_⟩
      simp only [Bool.false_eq_true, false_iff]
      rintro ⟨t, h, _⟩
      rw [← getStringVal_iff, ht] at h; cases h
    | some t =>
      refine ⟨_, rfl, ?_⟩
      constructor
      · intro h; exact ⟨t, (getStringVal_iff E s t).1 ht, h⟩
      · rintro ⟨t', h, h'⟩
        rw [← getStringVal_iff, ht] at h; cases h; exact h'
  | float f pos =>
    refine ⟨_, rfl, by simp, by simp, fun s => ?_⟩
    obtain ⟨b, hb, hi⟩ := float_test E (v0 := f) (v1 := .fin 0) (op := .EQ) (t := fun x => F64.eq x f)
      (fun _ => rfl) s
    refine ⟨b, hb, hi.trans ?_⟩
    simp only [EqHolds, F64.eq_iff]
    constructor
    · rintro ⟨x, hx, he⟩; exact ⟨x, f, hx, .float, he⟩
    · rintro ⟨x, c, hx, hc, he⟩; cases hc; exact ⟨x, hx, he⟩
  | int i sv pos =>
    refine ⟨_, rfl, by simp, by simp, fun s => ?_⟩
    obtain ⟨b, hb, hi⟩ := float_test E (v0 := i64ToF64 i) (v1 := .fin 0) (op := .EQ)
      (t := fun x => F64.eq x (i64ToF64 i)) (fun _ => rfl) s
    refine ⟨b, hb, hi.trans ?_⟩
    simp only [EqHolds, F64.eq_iff]
    constructor
    · rintro ⟨x, hx, he⟩; exact ⟨x, _, hx, .int, he⟩
    · rintro ⟨x, c, hx, hc, he⟩; cases hc; exact ⟨x, hx, he⟩
  | bool b pos =>
    refine ⟨_, rfl, by simp, by simp, fun s => ?_⟩
    simp only [FieldExpr.scalarTest, EqHolds]
    cases s with
    | bool b' => exact ⟨_, rfl, by simp⟩
    | _ => exact ⟨false, rfl, by simp⟩
  | net sv p pos =>
    refine ⟨_, rfl, by simp, by simp, fun s => ?_⟩
    simp only [FieldExpr.scalarTest, EqHolds]
    cases ht : getStringVal E s with
    | none =>
      refine ⟨false, rfl, ?_⟩
      simp only [Bool.false_eq_true, false_iff]
      rintro ⟨t, h, _⟩
      rw [← getStringVal_iff, ht] at h; cases h
    | some t =>
      refine ⟨_, rfl, ?_⟩
      rw [nets_iff p hv.1]
      constructor
      · intro h; exact ⟨t, (getStringVal_iff E s t).1 ht, h⟩
      · rintro ⟨t', h, h'⟩
        rw [← getStringVal_iff, ht] at h; cases h; exact h'
  | time sv t dayOnly pos =>
    cases dayOnly with
    | true =>
      refine ⟨_, rfl, by simp, by simp, fun s => ?_⟩
      obtain ⟨b, hb, hi⟩ := date_test E (v0 := unixNano t)
        (v1 := wrap64 (unixNano (t + nsPerDay) - 1)) (op := .BET)
        (t := fun dv => decide (dv ≥ unixNano t) &&
          decide (dv ≤ wrap64 (unixNano (t + nsPerDay) - 1))) (fun _ => rfl) s
      refine ⟨b, hb, hi.trans ?_⟩
      simp only [EqHolds, Bool.and_eq_true, decide_eq_true_eq]
      simp only [unixNano]
      have hday : (86400 * 10 ^ 9 : Int) = nsPerDay := by decide
      rw [hday]
      constructor
      · rintro ⟨w, hw, h1, h2⟩
        exact ⟨w, _, _, hw, int64Of_wrap t, ⟨_, int64Of_wrap _, int64Of_wrap _⟩, h1, h2⟩
      · rintro ⟨w, lo, hi, hw, hlo, ⟨h, hh, hhi⟩, h1, h2⟩
        cases hlo.unique (int64Of_wrap t)
        cases hh.unique (int64Of_wrap _)
        cases hhi.unique (int64Of_wrap _)
        exact ⟨w, hw, h1, h2⟩
    | false =>
      refine ⟨_, rfl, by simp, by simp, fun s => ?_⟩
      obtain ⟨b, hb, hi⟩ := date_test E (v0 := unixNano t) (v1 := 0) (op := .EQ)
        (t := fun dv => decide (dv = unixNano t)) (fun _ => rfl) s
      refine ⟨b, hb, hi.trans ?_⟩
      simp only [EqHolds, decide_eq_true_eq]
      simp only [unixNano]
      constructor
      · rintro ⟨w, hw, rfl⟩; exact ⟨_, hw, int64Of_wrap t⟩
      · rintro ⟨w, hw, h⟩; exact ⟨w, hw, h.unique (int64Of_wrap t)⟩

/-- Matchers of `<`, `<=`, `>`, `>=`. -/
theorem numeric_spec (op : Op) (hop : op = .LT ∨ op = .LTE ∨ op = .GT ∨ op = .GTE) (v : Val)
    (hv : OperandOk op v) : ∃ e, exprNumeric op [v] = .ok e ∧ e ≠ .exists_ ∧ e ≠ .null ∧
    ∀ s, ∃ b, e.scalarTest E s = .ok b ∧ (b = true ↔ CmpHolds E op v s) := by
  have hft : ∀ c, ∃ t : F64 → Bool, (∀ f, floatTest op c (.fin 0) f = .ok (t f)) ∧
      ∀ f, t f = true ↔ FRel op f c := by
    intro c
    rcases hop with rfl | rfl | rfl | rfl
    · exact ⟨fun f => F64.lt f c, fun _ => rfl, fun f => F64.lt_iff f c⟩
    · exact ⟨fun f => F64.le f c, fun _ => rfl, fun f => F64.le_iff f c⟩
    · exact ⟨fun f => F64.lt c f, fun _ => rfl, fun f => F64.lt_iff c f⟩
    · exact ⟨fun f => F64.le c f, fun _ => rfl, fun f => F64.le_iff c f⟩
  have hdt : ∀ c, ∃ t : Int → Bool, (∀ f, dateTest op c 0 f = .ok (t f)) ∧ ∀ f, t f = true ↔ IRel op f c := by
    intro c
    rcases hop with rfl | rfl | rfl | rfl
    · exact ⟨fun f => decide (f < c), fun _ => rfl, fun f => by simp [IRel]⟩
    · exact ⟨fun f => decide (f ≤ c), fun _ => rfl, fun f => by simp [IRel]⟩
    · exact ⟨fun f => decide (f > c), fun _ => rfl, fun f => by simp [IRel]⟩
    · exact ⟨fun f => decide (f ≥ c), fun _ => rfl, fun f => by simp [IRel]⟩
  have hty : v.type = .int ∨ v.type = .float ∨ v.type = .time := by
    rw [← typeOf_eq]
    rcases hop with rfl | rfl | rfl | rfl <;> exact hv
  cases v with
  | int i sv pos =>
    refine ⟨_, rfl, by simp, by simp, fun s => ?_⟩
    obtain ⟨t, ht, hr⟩ := hft (i64ToF64 i)
    obtain ⟨b, hb, hi⟩ := float_test E ht s
    refine ⟨b, hb, hi.trans ?_⟩
    simp only [hr, CmpHolds]
    constructor
    · rintro ⟨f, h, h'⟩; exact Or.inl ⟨f, _, h, .int, h'⟩
    · rintro (⟨f, c, h, hc, h'⟩ | ⟨_, _, _, _, _, _, h, _⟩)
      · cases hc; exact ⟨f, h, h'⟩
      · cases h
  | float i pos =>
    refine ⟨_, rfl, by simp, by simp, fun s => ?_⟩
    obtain ⟨t, ht, hr⟩ := hft i
    obtain ⟨b, hb, hi⟩ := float_test E ht s
    refine ⟨b, hb, hi.trans ?_⟩
    simp only [hr, CmpHolds]
    constructor
    · rintro ⟨f, h, h'⟩; exact Or.inl ⟨f, _, h, .float, h'⟩
    · rintro (⟨f, c, h, hc, h'⟩ | ⟨_, _, _, _, _, _, h, _⟩)
      · cases hc; exact ⟨f, h, h'⟩
      · cases h
  | time sv x d pos =>
    refine ⟨_, rfl, by simp, by simp, fun s => ?_⟩
    obtain ⟨t, ht, hr⟩ := hdt (unixNano x)
    obtain ⟨b, hb, hi⟩ := date_test E ht s
    refine ⟨b, hb, hi.trans ?_⟩
    simp only [hr, CmpHolds]
    constructor
    · rintro ⟨w, h, h'⟩
      exact Or.inr ⟨sv, x, d, pos, w, _, rfl, h, int64Of_wrap x, h'⟩
    · rintro (⟨f, c, h, hc, h'⟩ | ⟨sv', x', d', pos', w, c, h, hw, hc, h'⟩)
      · cases hc
      · cases h
        cases hc.unique (int64Of_wrap x)
        exact ⟨w, hw, h'⟩
  | str => simp [Val.type] at hty
  | bool => simp [Val.type] at hty
  | regex => simp [Val.type] at hty
  | net => simp [Val.type] at hty

theorem betweenConst_iff (v : Val) (c : F64) : BoundLit v c ↔ c = betweenConst v := by
  unfold BoundLit
  constructor
  · rintro (h | ⟨h, rfl⟩)
    · cases h <;> rfl
    · cases v with
      | int => exact absurd .int (h _)
      | float => exact absurd .float (h _)
      | _ => rfl
  · rintro rfl
    cases v with
    | int => exact Or.inl .int
    | float => exact Or.inl .float
    | _ => exact Or.inr ⟨fun _ h => (by cases h), rfl⟩

/-- The matcher of `><`. -/
theorem between_spec (a b : Val) (ha : OperandOk .BET a) (hbet : BetweenOk a b) :
    ∃ e, exprBetween [a, b] = .ok e ∧ e ≠ .exists_ ∧ e ≠ .null ∧
    ∀ s, ∃ r, e.scalarTest E s = .ok r ∧ (r = true ↔ BetHolds E a b s) := by
  have num : ∀ lo, NumLit a lo →
      exprBetween [a, b] = .ok (.float lo (betweenConst b) .BET) →
      ∃ e, exprBetween [a, b] = .ok e ∧ e ≠ .exists_ ∧ e ≠ .null ∧
      ∀ s, ∃ r, e.scalarTest E s = .ok r ∧ (r = true ↔ BetHolds E a b s) := by
    intro lo hlo he
    refine ⟨_, he, by simp, by simp, fun s => ?_⟩
    obtain ⟨r, hr, hi⟩ := float_test E (v0 := lo) (v1 := betweenConst b) (op := .BET)
      (t := fun f => F64.le lo f && F64.le f (betweenConst b)) (fun _ => rfl) s
    refine ⟨r, hr, hi.trans ?_⟩
    simp only [Bool.and_eq_true, F64.le_iff, BetHolds]
    constructor
    · rintro ⟨f, hf, h1, h2⟩
      exact Or.inl ⟨f, lo, _, hf, hlo, (betweenConst_iff b _).2 rfl, h1, h2⟩
    · rintro (⟨f, lo', hi', hf, hl, hb, h1, h2⟩ | ⟨_, _, _, _, _, _, _, _, _, _, _, h, _⟩)
      · cases hl.unique hlo
        rw [betweenConst_iff] at hb
        cases hb
        exact ⟨f, hf, h1, h2⟩
      · subst h; cases hlo
  cases a with
  | int i sv pos => exact num _ .int rfl
  | float f pos => exact num _ .float rfl
  | time sa ta da pa =>
    rcases hbet with ⟨_, _, _, _, sb, tb, db, pb, _, rfl, _⟩ | ⟨h, _⟩
    · refine ⟨_, rfl, by simp, by simp, fun s => ?_⟩
      obtain ⟨r, hr, hi⟩ := date_test E (v0 := unixNano ta) (v1 := unixNano tb) (op := .BET)
        (t := fun dv => decide (dv ≥ unixNano ta) && decide (dv ≤ unixNano tb)) (fun _ => rfl) s
      refine ⟨r, hr, hi.trans ?_⟩
      simp only [Bool.and_eq_true, decide_eq_true_eq, BetHolds]
      constructor
      · rintro ⟨w, hw, h1, h2⟩
        exact Or.inr ⟨sa, ta, da, pa, sb, tb, db, pb, w, _, _, rfl, rfl, hw, int64Of_wrap ta,
          int64Of_wrap tb, h1, h2⟩
      · rintro (⟨f, lo', hi', hf, hl, hb, h1, h2⟩ |
          ⟨_, _, _, _, _, _, _, _, w, lo, hi', h, h', hw, hlo, hhi, h1, h2⟩)
        · cases hl
        · cases h; cases h'
          cases hlo.unique (int64Of_wrap ta)
          cases hhi.unique (int64Of_wrap tb)
          exact ⟨w, hw, h1, h2⟩
    · exact absurd rfl h
  | str => simp [OperandOk, Val.type] at ha
  | bool => simp [OperandOk, Val.type] at ha
  | regex => simp [OperandOk, Val.type] at ha
  | net => simp [OperandOk, Val.type] at ha

/-! ### comparisons and queries -/

theorem anyGo_iff {α : Type} {p : α → GoM Bool} {P : α → Prop} {xs : List α}
    (h : ∀ x ∈ xs, ∃ b, p x = .ok b ∧ (b = true ↔ P x)) :
    ∃ b, anyGo p xs = .ok b ∧ (b = true ↔ ∃ x ∈ xs, P x) := by
  induction xs with
  | nil => exact ⟨false, rfl, by simp⟩
  | cons x xs ih =>
    obtain ⟨b, hb, hP⟩ := h x (by simp)
    obtain ⟨c, hc, hQ⟩ := ih (fun y hy => h y (by simp [hy]))
    cases b with
    | true => exact ⟨true, by simp [anyGo, hb], by simp [hP.1 rfl]⟩
    | false =>
      refine ⟨c, by simp [anyGo, hb, hc], ?_⟩
      rw [hQ]
      have : ¬ P x := fun hx => by simpa using hP.2 hx
      simp [this]

theorem mapGo_ok {α β : Type} {f : α → GoM β} {R : α → β → Prop} {xs : List α}
    (h : ∀ x ∈ xs, ∃ y, f x = .ok y ∧ R x y) :
    ∃ ys, mapGo f xs = .ok ys ∧ (∀ y ∈ ys, ∃ x ∈ xs, R x y) ∧ (∀ x ∈ xs, ∃ y ∈ ys, R x y) := by
  induction xs with
  | nil => exact ⟨[], rfl, by simp, by simp⟩
  | cons x xs ih =>
    obtain ⟨y, hy, hR⟩ := h x (by simp)
    obtain ⟨ys, hys, h1, h2⟩ := ih (fun z hz => h z (by simp [hz]))
    refine ⟨y :: ys, by simp [mapGo, hy, hys], ?_, ?_⟩
    · intro z hz
      rcases List.mem_cons.1 hz with rfl | hz
      · exact ⟨x, by simp, hR⟩
      · obtain ⟨w, hw, hr⟩ := h1 z hz; exact ⟨w, by simp [hw], hr⟩
    · intro z hz
      rcases List.mem_cons.1 hz with rfl | hz
      · exact ⟨y, by simp, hR⟩
      · obtain ⟨w, hw, hr⟩ := h2 z hz; exact ⟨w, by simp [hw], hr⟩

/-- What a leaf matcher computes on each scalar. -/
def LeafSpec (e : FieldExpr) (P : Json → Prop) : Prop :=
  e ≠ .exists_ ∧ e ≠ .null ∧ ∀ s, ∃ b, e.scalarTest E s = .ok b ∧ (b = true ↔ P s)

theorem leaf_matches {e : FieldExpr} {P : Json → Prop} (h : LeafSpec E e P) (vs : List Json) :
    ∃ b, e.matches E vs = .ok b ∧ (b = true ↔ ∃ s ∈ scalarValues vs, P s) := by
  obtain ⟨h1, h2, h3⟩ := h
  have : e.matches E vs = anyGo (e.scalarTest E) (scalarValues vs) := by
    cases e <;> first | rfl | (exact absurd rfl h1) | (exact absurd rfl h2)
  rw [this]
  exact anyGo_iff (fun s _ => h3 s)

theorem scalar_nonempty {vs : List Json} {s : Json} (h : s ∈ scalarValues vs) : 0 < vs.length := by
  cases vs with
  | nil => simp [scalarValues] at h
  | cons => simp

/-- A comparison evaluated by leaf matchers that satisfy their specification. -/
theorem exprResult_leaves {d : Json} {path : List Str} (hp : Plain d path)
    {es : List FieldExpr} {α : Type} {as : List α} {P : α → Json → Prop}
    (h1 : ∀ e ∈ es, ∃ a ∈ as, LeafSpec E e (P a)) (h2 : ∀ a ∈ as, ∃ e ∈ es, LeafSpec E e (P a)) :
    ∃ b, exprResult E path es d = .ok b ∧
      (b = true ↔ ∃ a ∈ as, ∃ s, ScalarUnder E d path s ∧ P a s) := by
  obtain ⟨vs, hvs, hm⟩ := getField_spec E d path hp
  unfold exprResult
  rw [hvs]
  dsimp only
  have hs := scalars_spec E hm
  have hany : ∃ b, anyGo (fun m => FieldExpr.matches E m vs) es = .ok b ∧
      (b = true ↔ ∃ e ∈ es, ∃ a ∈ as, LeafSpec E e (P a) ∧ ∃ s ∈ scalarValues vs, P a s) := by
    apply anyGo_iff
    intro e he
    obtain ⟨a, ha, hl⟩ := h1 e he
    obtain ⟨b, hb, hi⟩ := leaf_matches E hl vs
    refine ⟨b, hb, hi.trans ⟨fun h => ⟨a, ha, hl, h⟩, ?_⟩⟩
    rintro ⟨a', _, hl', s, hs, hP⟩
    refine ⟨s, hs, ?_⟩
    obtain ⟨b1, hb1, hi1⟩ := hl.2.2 s
    obtain ⟨b2, hb2, hi2⟩ := hl'.2.2 s
    rw [hb1] at hb2; cases hb2
    exact hi1.1 (hi2.2 hP)
  split
  · obtain ⟨b, hb, hi⟩ := hany
    refine ⟨b, hb, hi.trans ?_⟩
    constructor
    · rintro ⟨e, _, a, ha, _, s, hs', hP⟩; exact ⟨a, ha, s, (hs s).1 hs', hP⟩
    · rintro ⟨a, ha, s, hs', hP⟩
      obtain ⟨e, he, hl⟩ := h2 a ha
      exact ⟨e, he, a, ha, hl, s, (hs s).2 hs', hP⟩
  · rename_i hlen
    refine ⟨false, rfl, ?_⟩
    simp only [Bool.false_eq_true, false_iff]
    rintro ⟨a, ha, s, hs', hP⟩
    exact hlen (scalar_nonempty ((hs s).2 hs'))

/-- The matchers built for one well-typed comparison, and what they compute. -/
theorem buildExprs_spec (op : Op) (vs : List Val) (hok : ExprOk E op vs) (hl : ∀ v ∈ vs, LitOk v) :
    ∃ es, buildExprs E op vs = .ok es ∧ ∀ d path pos, Plain d path →
      ∃ b, exprResult E path es d = .ok b ∧ (b = true ↔ Sat E d (.expr op path vs pos)) := by
  have cmp : (op = .LT ∨ op = .LTE ∨ op = .GT ∨ op = .GTE) → vs.length = 1 →
      ∃ e v, vs = [v] ∧ exprNumeric op vs = .ok e ∧ LeafSpec E e (CmpHolds E op v) := by
    intro hop hlen
    obtain ⟨v, rfl⟩ := List.length_eq_one_iff.1 hlen
    obtain ⟨e, h1, h2, h3, h4⟩ := numeric_spec E op hop v (hok.types v (by simp))
    exact ⟨e, v, rfl, h1, h2, h3, h4⟩
  have cmp2 : (op = .LT ∨ op = .LTE ∨ op = .GT ∨ op = .GTE) → vs.length = 1 →
      ∃ e, exprNumeric op vs = .ok e ∧ ∀ d path pos, Plain d path →
        ∃ b, exprResult E path [e] d = .ok b ∧ (b = true ↔ Sat E d (.expr op path vs pos)) := by
    intro hop hlen
    obtain ⟨e, v, rfl, he, hl⟩ := cmp hop hlen
    refine ⟨e, he, fun d path pos hp => ?_⟩
    obtain ⟨b, hb, hi⟩ := exprResult_leaves E hp (es := [e]) (as := [v]) (P := CmpHolds E op)
      (by simpa using hl) (by simpa using hl)
    refine ⟨b, hb, hi.trans ?_⟩
    rcases hop with rfl | rfl | rfl | rfl <;> simp [Sat]
  have eq : 1 ≤ vs.length → ∃ es, exprEQ E vs = .ok es ∧ ∀ d path, Plain d path →
        ∃ b, exprResult E path es d = .ok b ∧
          (b = true ↔ ∃ v ∈ vs, ∃ s, ScalarUnder E d path s ∧ EqHolds E v s) := by
    intro hlen
    have hne : exprEQ E vs = mapGo (eqMatcher E) vs := by
      cases vs with
      | nil => simp at hlen
      | cons => rfl
    have hall : ∀ v ∈ vs, ∃ e, eqMatcher E v = .ok e ∧ LeafSpec E e (EqHolds E v) :=
      fun v hv => eqMatcher_spec E v (hl v hv)
    obtain ⟨es, hes, h1, h2⟩ := mapGo_ok (R := fun v e => LeafSpec E e (EqHolds E v)) hall
    exact ⟨es, by rw [hne, hes], fun d path hp => exprResult_leaves E hp h1 h2⟩
  have har := hok.arity
  cases op with
  | EXS =>
    refine ⟨_, rfl, fun d path pos hp => ?_⟩
    obtain ⟨ws, hws, hm⟩ := getField_spec E d path hp
    simp only [exprResult, hws, Sat, ← hm]
    cases ws with
    | nil => exact ⟨false, by simp, by simp⟩
    | cons w ws => exact ⟨true, by simp [anyGo, FieldExpr.matches], by simp⟩
  | NUL =>
    refine ⟨_, rfl, fun d path pos hp => ?_⟩
    obtain ⟨ws, hws, hm⟩ := getField_spec E d path hp
    simp only [exprResult, hws, Sat, ← hm]
    have hnull : ∀ w : Json, w.isNull = true ↔ w = .null := by
      intro w; cases w <;> simp [Json.isNull]
    cases ws with
    | nil => exact ⟨false, by simp, by simp⟩
    | cons w ws =>
      refine ⟨(w :: ws).all Json.isNull, ?_, ?_⟩
      · simp only [List.length_cons, Nat.zero_lt_succ, if_true, anyGo, FieldExpr.matches]
        cases (w :: ws).all Json.isNull <;> rfl
      · rw [List.all_eq_true]
        simp only [hnull]
        exact ⟨fun h => ⟨⟨w, by simp⟩, h⟩, fun h => h.2⟩
  | LT =>
    obtain ⟨e, he, h⟩ := cmp2 (by simp) har
    exact ⟨[e], by simp [buildExprs, he, Except.map], h⟩
  | LTE =>
    obtain ⟨e, he, h⟩ := cmp2 (by simp) har
    exact ⟨[e], by simp [buildExprs, he, Except.map], h⟩
  | GT =>
    obtain ⟨e, he, h⟩ := cmp2 (by simp) har
    exact ⟨[e], by simp [buildExprs, he, Except.map], h⟩
  | GTE =>
    obtain ⟨e, he, h⟩ := cmp2 (by simp) har
    exact ⟨[e], by simp [buildExprs, he, Except.map], h⟩
  | BET =>
    obtain ⟨a, b, rfl⟩ := List.length_eq_two.1 har
    obtain ⟨e, he, h1, h2, h3⟩ := between_spec E a b (hok.types a (by simp))
      (hok.between a b rfl rfl)
    refine ⟨[e], by simp [buildExprs, he, Except.map], fun d path pos hp => ?_⟩
    obtain ⟨r, hr, hi⟩ := exprResult_leaves E hp (es := [e]) (as := [()])
      (P := fun _ => BetHolds E a b) (by simpa using ⟨h1, h2, h3⟩) (by simpa using ⟨h1, h2, h3⟩)
    refine ⟨r, hr, hi.trans ?_⟩
    simp only [Sat]
    constructor
    · rintro ⟨_, _, h⟩; exact ⟨a, b, rfl, h⟩
    · rintro ⟨a', b', h, h'⟩; cases h; exact ⟨(), by simp, h'⟩
  | EQ => exact (eq har).imp fun es h => ⟨h.1, fun d path _ hp => h.2 d path hp⟩
  | SIM => exact (eq har).imp fun es h => ⟨h.1, fun d path _ hp => h.2 d path hp⟩

/-- The matcher built for a well-typed query computes the meaning of the query. -/
theorem build_spec (n : Node) (hok : AllOk E n) (hns : NoSubdoc n) (hl : LitsIn LitOk n) :
    ∃ b, build E n = .ok b ∧ ∀ d, PathsIn (Plain d) n → ∀ a,
      ∃ r, (b.result E d a).2 = .ok r ∧ (r = true ↔ Sat E d n) := by
  induction n with
  | and l r ihl ihr =>
    obtain ⟨bl, hbl, hsl⟩ := ihl hok.1 hns.1 hl.1
    obtain ⟨br, hbr, hsr⟩ := ihr hok.2 hns.2 hl.2
    refine ⟨.and bl br, by simp [build, hbl, hbr], fun d hp a => ?_⟩
    obtain ⟨x, hx, hix⟩ := hsl d hp.1 (a ++ [false])
    obtain ⟨y, hy, hiy⟩ := hsr d hp.2 (a ++ [true])
    simp only [BoolNode.result, Sat, ← hix, ← hiy]
    rcases hL : bl.result E d (a ++ [false]) with ⟨t1, e1⟩
    rcases hR : br.result E d (a ++ [true]) with ⟨t2, e2⟩
    rw [hL] at hx; rw [hR] at hy
    simp only at hx hy
    subst hx hy
    cases x <;> simp
  | or l r ihl ihr =>
    obtain ⟨bl, hbl, hsl⟩ := ihl hok.1 hns.1 hl.1
    obtain ⟨br, hbr, hsr⟩ := ihr hok.2 hns.2 hl.2
    refine ⟨.or bl br, by simp [build, hbl, hbr], fun d hp a => ?_⟩
    obtain ⟨x, hx, hix⟩ := hsl d hp.1 (a ++ [false])
    obtain ⟨y, hy, hiy⟩ := hsr d hp.2 (a ++ [true])
    simp only [BoolNode.result, Sat, ← hix, ← hiy]
    rcases hL : bl.result E d (a ++ [false]) with ⟨t1, e1⟩
    rcases hR : br.result E d (a ++ [true]) with ⟨t2, e2⟩
    rw [hL] at hx; rw [hR] at hy
    simp only at hx hy
    subst hx hy
    cases x <;> simp
  | not e ih =>
    obtain ⟨b, hb, hs⟩ := ih hok hns hl
    refine ⟨.not b, by simp [build, hb], fun d hp a => ?_⟩
    obtain ⟨x, hx, hix⟩ := hs d hp (a ++ [false])
    simp only [BoolNode.result, Sat, ← hix]
    rcases hL : b.result E d (a ++ [false]) with ⟨t1, e1⟩
    rw [hL] at hx
    simp only at hx
    subst hx
    cases x <;> simp
  | subdoc f e => exact absurd hns (by simp [NoSubdoc])
  | expr op f vs pos =>
    obtain ⟨es, hes, h⟩ := buildExprs_spec E op vs hok hl
    refine ⟨.expr f es (friendlyString E op f vs), by simp [build, hes], fun d hp a => ?_⟩
    obtain ⟨r, hr, hi⟩ := h d f pos hp
    exact ⟨r, by simp [BoolNode.result, hr], hi⟩

end Aql
