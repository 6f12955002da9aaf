import Verif.Props.Numbers
import Verif.Proofs.FormatText
import Verif.Spec.Grammar
/-!
Property C100: the texts of numbers (json_values.go:115-132, ast.go:240-249).
-/

namespace Aql

open Spec

variable (E : Env)

/-- **C100.** A string, pattern, network or time is compared with this text of a number in a document: the shortest
decimal that is read as the same double, the closest one of them, written without an exponent and without needless
zeros. Zero is `0`, or `-0` if it has a minus sign. -/
theorem C100_document_text {raw : Str} {q x : ℚ} (h : DecText raw q) (hr : RoundsTo q x) (hb : |x| < 2 ^ (1024 : ℤ))
    (s : Str) : getStringVal E (.num raw) = some s ↔
      (x = 0 ∧ (∃ t, raw = '-' :: t) ∧ s = "-0".toList) ∨ (x = 0 ∧ (¬ ∃ t, raw = '-' :: t) ∧ s = "0".toList) ∨
      (x ≠ 0 ∧ ∃ d e, ShortestDecimal x d e ∧ PlainText s (d * 10 ^ e)) := by
  rw [getStringVal_iff]
  have hread : ReadAs E raw (.fin x) := .decimal h hr hb
  constructor
  · intro ht
    cases ht with
    | @num _ f z _ h1 hz h3 =>
      obtain rfl := readAs_unique h1 hread
      cases h3 with
      | zero =>
        refine .inr (.inl ⟨rfl, fun hc => ?_, rfl⟩)
        exact absurd (hz.2 ⟨rfl, hc⟩) (by simp)
      | negZero => exact .inl ⟨rfl, (hz.1 rfl).2, rfl⟩
      | number h1 h2 h3 => exact .inr (.inr ⟨h1, _, _, h2, h3⟩)
  · rintro (⟨rfl, hm, rfl⟩ | ⟨rfl, hm, rfl⟩ | ⟨h0, d, e, h1, h2⟩)
    · exact .num hread (z := true) (by simpa using hm) .negZero
    · exact .num hread (z := false) (by simpa using hm) .zero
    · exact .num hread (z := false) (by simp [h0]) (.number h0 h1 h2)

/-- **C100.** A number of a query is printed in the same way. -/
theorem C100_query_text {pre t : Str} {f : F64} {z : Bool} {p : Pos} (h : Lit E pre t (.float f z p)) (s : Str) :
    (Val.float f z p).toStr E = s ↔ NumberText z f s := by
  have hd : ∀ x, f = .fin x → IsDouble x := by
    rintro x rfl
    cases h with
    | float _ _ _ _ _ _ _ h8 => exact toF64_isDouble h8
  have := formatFloat_text z f hd
  exact ⟨fun h => h ▸ this, fun h => numberText_unique this h⟩

/-- **C100.** The printed decimal has the fewest digits of all decimals that are read as the number, and no more than
seventeen. -/
theorem C100_fewest_digits {x : ℚ} (hx : IsDouble x) (h0 : x ≠ 0) (z : Bool) (p : Pos) :
    ∃ d e : ℤ, PlainText ((Val.float (.fin x) z p).toStr E) (d * 10 ^ e) ∧ RoundsTo (d * 10 ^ e) x ∧ |d| < 10 ^ 17 ∧
      ∀ (d' e' : ℤ) (n : ℕ), RoundsTo (d' * 10 ^ e') x → |d'| < 10 ^ n → |d| < 10 ^ n := by
  have h := formatFloat_text z (.fin x) (by rintro _ ⟨⟩; exact hx)
  cases h with
  | zero => exact absurd rfl h0
  | negZero => exact absurd rfl h0
  | number h1 h2 h3 =>
    exact ⟨_, _, h3, h2.reads, shortest_seventeen h0 hx h2, shortest_fewest h0 h2⟩

/-- The text of a number of a document, with its double. -/
theorem text_decimal {raw : Str} {q x : ℚ} (h : DecText raw q) (hr : RoundsTo q x) (hb : |x| < 2 ^ (1024 : ℤ)) :
    getStringVal E (.num raw) = some (formatFloat (isNegZero raw (.fin x)) (.fin x)) ∧
      getNumberVal E (.num raw) = some (.fin x) := by
  have := (parseFloat_iff E raw _).2 (.decimal h hr hb)
  simp [getStringVal, getNumberVal, this]

/-- **C100.** The text of a number, read as a number again, is the same double with the same text. -/
theorem C100_reads_back {raw : Str} {q x : ℚ} (h : DecText raw q) (hr : RoundsTo q x) (hb : |x| < 2 ^ (1024 : ℤ)) :
    ∃ s, getStringVal E (.num raw) = some s ∧ getNumberVal E (.num s) = getNumberVal E (.num raw) ∧
      getStringVal E (.num s) = some s := by
  obtain ⟨h1, h2⟩ := text_decimal E h hr hb
  have hx : IsDouble x := ⟨hr.1.1, hb⟩
  obtain ⟨m, a, r, q', k1, k2, k3, k4, k5, k6, k7, k8⟩ := formatFloat_reads (isNegZero raw (.fin x)) hx
  have hr' := (reads_iff hx).2 k7
  obtain ⟨h3, h4⟩ := text_decimal E k6 hr' hb
  refine ⟨_, h1, by rw [h2, h4], ?_⟩
  rw [h3]
  by_cases h0 : x = 0
  · subst h0
    cases hz : isNegZero raw (.fin 0) <;> rfl
  · have : ∀ z z', formatFloat z (.fin x) = formatFloat z' (.fin x) := by
      intro z z'
      unfold formatFloat
      simp [h0]
    rw [this _ (isNegZero raw (.fin x))]

/-- **C100.** Two numbers of documents have the same text exactly if they are the same double, and if it is zero, have the
same sign. -/
theorem C100_same_text {raw raw' : Str} {q x q' x' : ℚ} (h : DecText raw q) (hr : RoundsTo q x) (hb : |x| < 2 ^ (1024 : ℤ))
    (h' : DecText raw' q') (hr' : RoundsTo q' x') (hb' : |x'| < 2 ^ (1024 : ℤ)) :
    getStringVal E (.num raw) = getStringVal E (.num raw') ↔
      x = x' ∧ (x = 0 → ((∃ t, raw = '-' :: t) ↔ ∃ t, raw' = '-' :: t)) := by
  obtain ⟨h1, h2⟩ := text_decimal E h hr hb
  obtain ⟨h1', h2'⟩ := text_decimal E h' hr' hb'
  have hx : IsDouble x := ⟨hr.1.1, hb⟩
  have hx' : IsDouble x' := ⟨hr'.1.1, hb'⟩
  rw [h1, h1', Option.some.injEq]
  constructor
  · intro he
    obtain ⟨m, a, r, p, k1, k2, k3, k4, k5, k6, k7, k8⟩ := formatFloat_reads (isNegZero raw (.fin x)) hx
    obtain ⟨m', a', r', p', j1, j2, j3, j4, j5, j6, j7, j8⟩ := formatFloat_reads (isNegZero raw' (.fin x')) hx'
    rw [he] at k6
    have := ((decimalValue_iff _ _).2 k6).symm.trans ((decimalValue_iff _ _).2 j6)
    cases this
    rw [k7] at j7
    cases j7
    refine ⟨rfl, fun h0 => ?_⟩
    subst h0
    have e1 := isNegZero_iff raw (.fin 0)
    have e2 := isNegZero_iff raw' (.fin 0)
    simp only [true_and] at e1 e2
    rw [← e1, ← e2]
    cases hz : isNegZero raw (.fin 0) <;> cases hz' : isNegZero raw' (.fin 0) <;> rw [hz, hz'] at he <;>
      first | rfl | exact absurd he (by decide)
  · rintro ⟨rfl, hs⟩
    by_cases h0 : x = 0
    · subst h0
      have e1 := isNegZero_iff raw (.fin 0)
      have e2 := isNegZero_iff raw' (.fin 0)
      simp only [true_and] at e1 e2
      rw [Bool.eq_iff_iff.2 (e1.trans ((hs rfl).trans e2.symm))]
    · unfold formatFloat
      simp [h0]

-- texts of some numbers, and a number that meets the hypotheses
example : getStringVal testEnv (.num "-1.10e2".toList) = some "-110".toList ∧
    getStringVal testEnv (.num "0.1000000000000000055".toList) = some "0.1".toList ∧
    getStringVal testEnv (.num "1e23".toList) = some "100000000000000000000000".toList ∧
    getStringVal testEnv (.num "9007199254740993".toList) = some "9007199254740992".toList ∧
    getStringVal testEnv (.num "-0.0".toList) = some "-0".toList ∧
    getStringVal testEnv (.num "123.456e-10".toList) = some "0.0000000123456".toList := by decide +kernel

example : DecText "-1.10e2".toList (-110) ∧ RoundsTo (-110) (-110) ∧ |(-110 : ℚ)| < 2 ^ (1024 : ℤ) ∧
    getStringVal testEnv (.num "-110.0".toList) = getStringVal testEnv (.num "-1.10e2".toList) := by
  refine ⟨(decimalValue_iff _ _).1 (by decide +kernel), ?_, ?_, by decide +kernel⟩
  · rw [roundsTo_iff]
    have := roundQ_small_int (n := -110) (by norm_num)
    push_cast at this
    exact this.symm
  · decide +kernel

end Aql
