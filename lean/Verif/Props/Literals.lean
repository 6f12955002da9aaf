import Verif.Proofs.Literals
import Verif.Props.Grammar
/-!
Property C04: literals. `Spec.Lit E pre t v` states that `t`, after the text `pre`, is a literal denoting
the value `v`: its shape decides the type (strings, regular expressions, timestamps, days, addresses,
blocks, floats, integers, booleans).
-/

namespace Aql

open Spec

variable (E : Env)

/-- The text is accepted by the grammar. -/
def Accepted (s : Str) : Prop := ∃ n, grammarOut E (decode (utf8 s)) = some (.ok n)

theorem accepted_iff (s : Str) : Accepted E s ↔ ∃ n, Query E s n := by
  constructor
  · rintro ⟨n, h⟩
    rw [decode_utf8] at h
    obtain ⟨s', hs, hq⟩ := grammarOut_iff.1 h
    rw [map_ok_inj hs]
    exact ⟨n, hq⟩
  · rintro ⟨n, h⟩
    exact ⟨n, C02_sentence_is_accepted E s n h⟩

/-- **C04.** A literal gets the value its text denotes. -/
theorem C04_literal_value (p t : Str) (xs : List Str) (v : Val) (hp : Path E p xs) (ht : Lit E (p ++ [':']) t v) :
    grammarOut E (decode (utf8 (p ++ ':' :: t))) =
      some (.ok (.expr .EQ (withoutStars xs) [v] (posAt [] (p ++ ':' :: t)))) :=
  C02_sentence_is_accepted E _ _ (query_lit hp ht)

theorem path_a : Path E ['a'] [['a']] :=
  .one (.bare (by simp) (by
    intro c hc
    cases List.mem_singleton.1 hc
    exact (fieldChar_ascii (by decide)).2 (by decide)))

/-- **C04.** A text denotes at most one value, so the shape decides the type. -/
theorem C04_literal_unique (pre t : Str) (v w : Val) (hv : Lit E pre t v) (hw : Lit E pre t w) : v = w := by
  obtain ⟨v', hv', ev⟩ := lit_move (p' := ['a', ':']) hv
  obtain ⟨w', hw', ew⟩ := lit_move (p' := ['a', ':']) hw
  have h := C04_literal_value E ['a'] t _ v' (path_a E) hv'
  rw [C04_literal_value E ['a'] t _ w' (path_a E) hw'] at h
  have : v' = w' := by
    simp only [Option.some.injEq, Except.ok.injEq, Node.expr.injEq, List.cons.injEq] at h
    exact h.2.2.1.1.symm
  subst this
  exact unplaced_pos (ev.symm.trans ew) (by rw [lit_pos hv, lit_pos hw])

/-- **C04.** With a bare field name, text that begins like a number and contains no white space, quote
or opening parenthesis is accepted exactly if it is a literal. -/
theorem C04_accepted_iff_literal (p t : Str) (hp : p ≠ []) (hp' : ∀ c ∈ p, FieldChar E c)
    (ht : ∀ c ∈ t, ¬ IsWs c ∧ c ≠ '"' ∧ c ≠ '(') (hd : ∃ c u, t = c :: u ∧ (('0' ≤ c ∧ c ≤ '9') ∨ c = '-')) :
    Accepted E (p ++ ':' :: t) ↔ ∃ v, Lit E (p ++ [':']) t v := by
  rw [accepted_iff]
  exact bare_query hp hp' ht hd

/-- **C04.** An integer is accepted exactly if it fits 64 bits, and carries its value. -/
theorem C04_integer_range (p m a : Str) (hp : p ≠ []) (hp' : ∀ c ∈ p, FieldChar E c) (hm : Minus m) (ha : a ≠ [])
    (hd : AllDigits a) (n : Int) (hn : n = if m = [] then (digitsValue a : Int) else -digitsValue a) :
    (Accepted E (p ++ ':' :: (m ++ a)) ↔ -(2 ^ 63 : Int) ≤ n ∧ n < 2 ^ 63) ∧
    (-(2 ^ 63 : Int) ≤ n → n < 2 ^ 63 → grammarOut E (decode (utf8 (p ++ ':' :: (m ++ a)))) =
      some (.ok (.expr .EQ (withoutStars [p]) [.int n (m ++ a) (posAt (p ++ [':']) (m ++ a))]
        (posAt [] (p ++ ':' :: (m ++ a)))))) := by
  have hi : IntText (m ++ a) n := by
    rcases hm with rfl | rfl
    · exact ⟨[], false, a, .none, ha, hd, rfl, by simpa using hn⟩
    · exact ⟨['-'], true, a, .minus, ha, hd, rfl, by simpa using hn⟩
  have huniq : ∀ k, IntText (m ++ a) k → k = n := by
    rintro k ⟨sg, neg, ds, hs, -, hds, e, rfl⟩
    have hsg : ∀ sg neg, SignText sg neg → sg = ['+'] ∨ (Minus sg ∧ neg = decide (sg ≠ [])) := by
      intro sg neg h
      cases h
      · exact .inr ⟨.inl rfl, by decide⟩
      · exact .inl rfl
      · exact .inr ⟨.inr rfl, by decide⟩
    rcases hsg sg neg hs with rfl | ⟨h1, h2⟩
    · have := minus_digits_mem (c := '+') hm hd (by rw [e]; simp)
      exact absurd this (by decide)
    · obtain ⟨rfl, rfl⟩ := minus_unique hm h1 hd hds e
      subst hn h2
      by_cases h0 : m = [] <;> simp [h0]
  refine ⟨?_, ?_⟩
  · rw [C04_accepted_iff_literal E p (m ++ a) hp hp' ?_ ?_]
    · constructor
      · rintro ⟨v, hv⟩
        obtain ⟨k, h1, h2, h3, -⟩ := lit_int hm ha hd hv
        rw [← huniq k h1]; exact ⟨h2, h3⟩
      · rintro ⟨h1, h2⟩
        exact ⟨_, .int hm ha hd rfl hi h1 h2⟩
    · intro c hc
      rcases minus_digits_mem hm hd hc with h | rfl
      · refine ⟨?_, ?_, ?_⟩
        · rintro (rfl | rfl | rfl | rfl) <;> (revert h; decide)
        · rintro rfl; revert h; decide
        · rintro rfl; revert h; decide
      · decide
    · obtain ⟨c, u, rfl⟩ : ∃ c u, a = c :: u := by cases a <;> simp_all
      rcases hm with rfl | rfl
      · exact ⟨c, u, rfl, .inl (hd c (by simp))⟩
      · exact ⟨'-', _, rfl, .inr rfl⟩
  · intro h1 h2
    exact C04_literal_value E p (m ++ a) [p] _ (.one (.bare hp hp')) (.int hm ha hd rfl hi h1 h2)

/-- **C04.** A date is accepted exactly if the day exists. -/
theorem C04_date_exists (p t : Str) (x : Date) (hp : p ≠ []) (hp' : ∀ c ∈ p, FieldChar E c) (ht : DateText t x) :
    (Accepted E (p ++ ':' :: t) ↔ x.Valid) ∧
    (∀ n, DayCount x n → grammarOut E (decode (utf8 (p ++ ':' :: t))) =
      some (.ok (.expr .EQ (withoutStars [p]) [.time t (n * dayNanos) true (posAt (p ++ [':']) t)]
        (posAt [] (p ++ ':' :: t))))) := by
  obtain ⟨-, mem, hh⟩ := date_mem ht
  refine ⟨?_, ?_⟩
  · rw [C04_accepted_iff_literal E p t hp hp' ?_ ?_]
    · constructor
      · rintro ⟨v, hv⟩
        obtain ⟨i, ⟨y, hy, hv, -⟩, -⟩ := lit_date ht hv
        obtain ⟨a, b, c, -, h4, -, h2, -, -, e, e1, e2, e3⟩ := ht
        obtain ⟨a', b', c', -, h4', -, h2', -, -, e', e1', e2', e3'⟩ := hy
        rw [e] at e'
        obtain ⟨rfl, k1⟩ := List.append_inj e' (by omega)
        obtain ⟨rfl, k2⟩ := List.append_inj (List.cons.inj k1).2 (by omega)
        cases k2
        have : x = y := by
          cases x; cases y
          simp only [Date.mk.injEq]
          simp only at e1 e2 e3 e1' e2' e3'
          omega
        exact this ▸ hv
      · intro hv
        exact ⟨_, .day ⟨x, ht, hv, _, dayCount_exists hv, rfl⟩⟩
    · intro c hc
      rcases mem c hc with h | rfl
      · refine ⟨?_, ?_, ?_⟩
        · rintro (rfl | rfl | rfl | rfl) <;> (revert h; decide)
        · rintro rfl; revert h; decide
        · rintro rfl; revert h; decide
      · decide
    · obtain ⟨c, u, rfl⟩ : ∃ c u, t = c :: u := by
        cases t with
        | nil => have := date_length ht; cases this
        | cons c u => exact ⟨c, u, rfl⟩
      exact ⟨c, u, rfl, mem c (by simp)⟩
  · intro n hn
    exact C04_literal_value E p t [p] _ (.one (.bare hp hp')) (.day ⟨x, ht, hn.valid, n, hn, rfl⟩)

/-- **C04.** A dotted quad of up to three digits each is accepted exactly if it is an address, in
particular no octet exceeds 255. -/
theorem C04_octets (p : Str) (w x y z : Nat) (hp : p ≠ []) (hp' : ∀ c ∈ p, FieldChar E c) (hw : w ≤ 999) (hx : x ≤ 999)
    (hy : y ≤ 999) (hz : z ≤ 999) :
    Accepted E (p ++ ':' :: (numeral w ++ '.' :: (numeral x ++ '.' :: (numeral y ++ '.' :: numeral z)))) ↔
      w ≤ 255 ∧ x ≤ 255 ∧ y ≤ 255 ∧ z ≤ 255 := by
  have d3 : ∀ {n : Nat}, n ≤ 999 → Digits 3 (numeral n) := by
    intro n hn
    exact (digits_iff 3 _).2 ⟨numeral_ne_nil n, (numeral_length_le (by norm_num)).2 (by omega), numeral_digits n⟩
  rw [C04_accepted_iff_literal E p _ hp hp' ?_ ?_]
  · constructor
    · rintro ⟨v, hv⟩
      obtain ⟨a, ⟨w', x', y', z', h1, h2, h3, h4, e, -⟩, -⟩ := lit_quad (d3 hw) (d3 hx) (d3 hy) (d3 hz) hv
      have cut : ∀ {m n : Nat} {s t : Str}, numeral m ++ '.' :: s = numeral n ++ '.' :: t → m = n ∧ s = t := by
        intro m n s t e
        have hh := span_unique (p := Dig) e (fun c hc => numeral_dig hc) (fun c hc => numeral_dig hc)
          (by rw [noHead_cons]; decide) (by rw [noHead_cons]; decide)
        have := numeral_inj hh
        subst this
        exact ⟨rfl, by simpa using e⟩
      obtain ⟨e1, k1⟩ := cut e
      obtain ⟨e2, k2⟩ := cut k1
      obtain ⟨e3, k3⟩ := cut k2
      have e4 := numeral_inj k3
      omega
    · rintro ⟨h1, h2, h3, h4⟩
      exact ⟨_, .address ⟨w, x, y, z, h1, h2, h3, h4, rfl, rfl⟩⟩
  · intro c hc
    have : Dig c ∨ c = '.' := by
      simp only [List.mem_append, List.mem_cons] at hc
      rcases hc with h | h | h | h | h | h | h
      · exact .inl (numeral_dig h)
      · exact .inr h
      · exact .inl (numeral_dig h)
      · exact .inr h
      · exact .inl (numeral_dig h)
      · exact .inr h
      · exact .inl (numeral_dig h)
    rcases this with h | rfl
    · refine ⟨?_, ?_, ?_⟩
      · rintro (rfl | rfl | rfl | rfl) <;> (revert h; decide)
      · rintro rfl; revert h; decide
      · rintro rfl; revert h; decide
    · decide
  · rcases h : numeral w with _ | ⟨c, u⟩
    · exact absurd h (numeral_ne_nil w)
    · exact ⟨c, _, rfl, .inl (numeral_dig (n := w) (by rw [h]; simp))⟩

-- concrete literals
example : Accepted testEnv "a:9223372036854775807".toList ∧ ¬ Accepted testEnv "a:9223372036854775808".toList := by
  have hp : ∀ c ∈ ['a'], FieldChar testEnv c := by unfold FieldChar; decide
  have h1 := (C04_integer_range testEnv ['a'] [] "9223372036854775807".toList (by decide) hp (.inl rfl) (by decide)
    (by unfold AllDigits; decide) (2 ^ 63 - 1) (by decide)).1
  have h2 := (C04_integer_range testEnv ['a'] [] "9223372036854775808".toList (by decide) hp (.inl rfl) (by decide)
    (by unfold AllDigits; decide) (2 ^ 63) (by decide)).1
  exact ⟨h1.2 (by decide), fun h => absurd (h2.1 h) (by decide)⟩

example : grammarOut testEnv (decode (utf8 "a:2024-02-29".toList)) =
    some (.ok (.expr .EQ ["a".toList] [.time "2024-02-29".toList (19782 * dayNanos) true ⟨1, 3, 2, 10⟩] ⟨1, 1, 0, 12⟩)) := by
  decide +kernel

example : errorPos testEnv "a:2023-02-29".toList = some ⟨1, 3, 2, 10⟩ := by decide +kernel

end Aql
