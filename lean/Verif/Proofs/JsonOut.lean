import Verif.Spec.JsonRead
import Verif.Proofs.Digits
import Verif.Proofs.Reread
/-! Texts written by MarshalIndent are read back. -/

namespace Aql

open Spec

variable (short : Bool)

theorem hexValue_digit {d : Nat} (h : d < 16) : hexValue (hexDigit d) = some d := by
  interval_cases d <;> decide

theorem fourHex_digits (c : Char) (h : c.toNat < 0x10000) :
    fourHex (hexDigit (c.toNat / 4096 % 16)) (hexDigit (c.toNat / 256 % 16)) (hexDigit (c.toNat / 16 % 16))
      (hexDigit (c.toNat % 16)) = some c := by
  unfold fourHex
  rw [hexValue_digit (Nat.mod_lt _ (by norm_num)), hexValue_digit (Nat.mod_lt _ (by norm_num)),
    hexValue_digit (Nat.mod_lt _ (by norm_num)), hexValue_digit (Nat.mod_lt _ (by norm_num))]
  have hn : ((c.toNat / 4096 % 16 * 16 + c.toNat / 256 % 16) * 16 + c.toNat / 16 % 16) * 16 + c.toNat % 16 =
      c.toNat := by omega
  simp only [hn, Char.ofNat_toNat]
  rw [if_neg]
  have := c.valid
  simp only [UInt32.isValidChar, Nat.isValidChar] at this
  simp only [Char.toNat]
  omega

theorem readString_char (c : Char) (t : Str) :
    readString (jsonChar short c ++ t) = (readString t).map fun (s, r) => (c :: s, r) := by
  unfold jsonChar
  by_cases h1 : c = '"'
  · subst h1; simp [readString, shortEscape]
  rw [if_neg h1]
  by_cases h2 : c = '\\'
  · subst h2; simp [readString, shortEscape]
  rw [if_neg h2]
  by_cases h3 : c = '\n'
  · subst h3; simp [readString, shortEscape]
  rw [if_neg h3]
  by_cases h4 : c = '\r'
  · subst h4; simp [readString, shortEscape]
  rw [if_neg h4]
  by_cases h5 : c = '\t'
  · subst h5; simp [readString, shortEscape]
  rw [if_neg h5]
  by_cases h6 : (short && c.toNat == 8) = true
  · rw [if_pos h6]
    have : c = Char.ofNat 8 := by simp at h6; rw [← h6.2, Char.ofNat_toNat]
    subst this; simp [readString, shortEscape]
  rw [if_neg h6]
  by_cases h7 : (short && c.toNat == 12) = true
  · rw [if_pos h7]
    have : c = Char.ofNat 12 := by simp at h7; rw [← h7.2, Char.ofNat_toNat]
    subst this; simp [readString, shortEscape]
  rw [if_neg h7]
  split
  · next h8 =>
    have hc : c.toNat < 0x10000 := by
      simp only [Bool.or_eq_true, decide_eq_true_eq, beq_iff_eq] at h8
      rcases h8 with ((((h | h) | h) | h) | h) | h
      · omega
      · subst h; decide
      · subst h; decide
      · subst h; decide
      · omega
      · omega
    rw [hexDigits_four]
    simp only [List.cons_append, List.nil_append, readString]
    rw [fourHex_digits c hc]
  · next h8 =>
    have h9 : ¬ c.toNat < 32 := by
      intro h; apply h8; simp [h]
    simp only [List.cons_append, List.nil_append]
    rw [readString]
    · simp [h9, h2]
    · intros; contradiction
    · intros; contradiction
    · exact h1

theorem readString_text (s t : Str) :
    readString (s.flatMap (jsonChar short) ++ '"' :: t) = some (s, t) := by
  induction s with
  | nil => simp [readString]
  | cons c s ih => rw [List.flatMap_cons, List.append_assoc, readString_char, ih]; rfl

/-- What follows a number does not continue it. -/
def NoDigit (t : Str) : Prop := ∀ c, t.head? = some c → isDig c = false

theorem readInt_text (i : Int) (t : Str) (ht : NoDigit t) : readInt (jsonInt i ++ t) = some (i, t) := by
  have key : ∀ n : Nat, (itoa n ++ t).takeWhile isDig = itoa n ∧ (itoa n ++ t).dropWhile isDig = t := by
    intro n
    have hall : ∀ c ∈ itoa n, isDig c = true := fun c hc => numeral_digits n c hc
    have ht' : t.takeWhile isDig = [] ∧ t.dropWhile isDig = t := by
      cases t with
      | nil => simp
      | cons c t => simp [ht c rfl]
    rw [List.takeWhile_append_of_pos hall, List.dropWhile_append_of_pos hall, ht'.1, ht'.2]
    simp
  have hz : ∀ n : Nat, ¬ (itoa n = [] ∨ ((itoa n).head? = some '0' ∧ 1 < (itoa n).length)) := by
    rintro n (h | ⟨h1, h2⟩)
    · exact numeral_ne_nil n h
    · exact numeral_head n h2 h1
  unfold readInt jsonInt
  rw [show isDecimal = isDig from rfl]
  by_cases hi : i < 0
  · rw [if_pos hi]
    simp only [List.cons_append]
    rw [(key _).1, (key _).2, if_neg (hz _)]
    have : digitsValue (itoa i.natAbs) = i.natAbs := by rw [← natOfDigits_eq]; exact natOfDigits_numeral _
    rw [this]
    simp only [if_true, Option.some.injEq, Prod.mk.injEq, and_true]
    omega
  · rw [if_neg hi]
    have hm : ∀ r, (itoa i.natAbs ++ t) ≠ '-' :: r := by
      intro r h
      cases hn : itoa i.natAbs with
      | nil => exact numeral_ne_nil _ hn
      | cons c s =>
        have : isDig c = true := numeral_digits i.natAbs c (by change c ∈ itoa _; rw [hn]; simp)
        rw [hn] at h
        simp at h
        rw [h.1] at this
        exact absurd this (by decide)
    split
    next neg s heq =>
    split at heq
    · next r h => exact absurd h (hm r)
    · simp only [Prod.mk.injEq] at heq
      obtain ⟨rfl, rfl⟩ := heq
      rw [(key _).1, (key _).2, if_neg (hz _)]
      have : digitsValue (itoa i.natAbs) = i.natAbs := by rw [← natOfDigits_eq]; exact natOfDigits_numeral _
      rw [this]
      simp only [Bool.false_eq_true, if_false, Option.some.injEq, Prod.mk.injEq, and_true]
      omega

theorem skipWs_newline (d : Nat) (t : Str) : skipWs (newline d ++ t) = skipWs t := by
  have h : ∀ c ∈ newline d, isJsonWs c = true := by
    intro c hc
    simp only [newline, List.mem_cons, List.mem_replicate] at hc
    rcases hc with rfl | ⟨-, rfl⟩ <;> decide
  unfold skipWs
  rw [List.dropWhile_append_of_pos h]

theorem skipWs_skip (s : Str) : skipWs (skipWs s) = skipWs s := by
  unfold skipWs
  induction s with
  | nil => rfl
  | cons c s ih =>
    by_cases h : isJsonWs c = true
    · simp only [List.dropWhile_cons, h, if_true, ih]
    · simp [h]

theorem skipWs_cons {c : Char} (t : Str) (h : isJsonWs c = false) : skipWs (c :: t) = c :: t := by
  simp [skipWs, h]

theorem readValue_skip (n : Nat) (s : Str) : readValue n (skipWs s) = readValue n s := by
  cases n with
  | zero => simp [readValue]
  | succ n => simp only [readValue, skipWs_skip]

theorem readItems_skip (n : Nat) (s : Str) : readItems n (skipWs s) = readItems n s := by
  cases n with
  | zero => simp [readItems]
  | succ n => simp only [readItems, readValue_skip]

theorem readMembers_skip (n : Nat) (s : Str) : readMembers n (skipWs s) = readMembers n s := by
  cases n with
  | zero => simp [readMembers]
  | succ n => simp only [readMembers, skipWs_skip]

theorem jsonInt_head (i : Int) : ∃ c s, jsonInt i = c :: s ∧ (c = '-' ∨ isDig c = true) := by
  unfold jsonInt
  split
  · exact ⟨_, _, rfl, .inl rfl⟩
  · cases h : itoa i.natAbs with
    | nil => exact absurd h (numeral_ne_nil _)
    | cons c s =>
      exact ⟨c, s, rfl, .inr (numeral_digits i.natAbs c (by change c ∈ itoa _; rw [h]; simp))⟩

theorem digit_plain {c : Char} (h : c = '-' ∨ isDig c = true) : isJsonWs c = false ∧ c ≠ ']' ∧ c ≠ '}' ∧ c ≠ '"' ∧
    c ≠ '[' ∧ c ≠ '{' ∧ c ≠ 'n' := by
  rcases h with rfl | h
  · decide
  · rw [isDig_toNat] at h
    have : ∀ d : Char, (d.toNat < 48 ∨ 57 < d.toNat) → c ≠ d := by
      rintro d hd rfl; omega
    refine ⟨?_, this _ (by decide), this _ (by decide), this _ (by decide), this _ (by decide),
      this _ (by decide), this _ (by decide)⟩
    simp [isJsonWs, this ' ' (by decide), this '\t' (by decide), this '\n' (by decide), this '\r' (by decide)]

theorem jsonText_head (d : Nat) (v : JOut) : ∃ c s, v.text short d = c :: s ∧ isJsonWs c = false ∧ c ≠ ']' := by
  cases v with
  | null => exact ⟨'n', "ull".toList, by simp [JOut.text], by decide, by decide⟩
  | num i =>
    obtain ⟨c, s, h, hc⟩ := jsonInt_head i
    exact ⟨c, s, by simp [JOut.text, h], (digit_plain hc).1, (digit_plain hc).2.1⟩
  | str s => exact ⟨'"', _, by simp only [JOut.text, jsonString]; rfl, by decide, by decide⟩
  | arr vs => cases vs with
    | nil => exact ⟨'[', "]".toList, by simp [JOut.text], by decide, by decide⟩
    | cons v vs => exact ⟨'[', _, by simp only [JOut.text]; rfl, by decide, by decide⟩
  | obj vs => cases vs with
    | nil => exact ⟨'{', "}".toList, by simp [JOut.text], by decide, by decide⟩
    | cons v vs => exact ⟨'{', _, by simp only [JOut.text]; rfl, by decide, by decide⟩

theorem skipWs_text (d : Nat) (v : JOut) (t : Str) : skipWs (v.text short d ++ t) = v.text short d ++ t := by
  obtain ⟨c, s, h, hc, -⟩ := jsonText_head short d v
  rw [h, List.cons_append, skipWs_cons _ hc]

theorem noDigit_newline (d : Nat) (t : Str) : NoDigit (newline d ++ t) := by
  intro c hc; simp [newline] at hc; subst hc; decide

theorem noDigit_comma (t : Str) : NoDigit (',' :: t) := by
  intro c hc; simp at hc; subst hc; decide

/-- The text of items or members begins with a new line. -/
theorem jsonLines_cons (d : Nat) (x : Str) (xs : List Str) : ∃ r, jsonLines d (x :: xs) = newline d ++ x ++ r ∧
    ((xs = [] ∧ r = []) ∨ (xs ≠ [] ∧ r = ',' :: jsonLines d xs)) := by
  cases xs with
  | nil => exact ⟨[], by simp [jsonLines], .inl ⟨rfl, rfl⟩⟩
  | cons y ys => exact ⟨',' :: jsonLines d (y :: ys), by simp [jsonLines], .inr ⟨by simp, rfl⟩⟩

mutual
theorem readValue_text : ∀ (v : JOut) (d n : Nat) (t : Str), (v.text short d).length < n → NoDigit t →
    readValue n (v.text short d ++ t) = some (v, t)
  | .null, d, n, t, hn, ht => by
    obtain ⟨n, rfl⟩ : ∃ k, n = k + 1 := ⟨n - 1, by omega⟩
    rw [readValue, skipWs_text]
    simp [JOut.text]
  | .str s, d, n, t, hn, ht => by
    obtain ⟨n, rfl⟩ : ∃ k, n = k + 1 := ⟨n - 1, by omega⟩
    rw [readValue, skipWs_text]
    simp only [JOut.text, jsonString, List.cons_append, List.append_assoc, List.nil_append]
    rw [readString_text]
    rfl
  | .num i, d, n, t, hn, ht => by
    obtain ⟨n, rfl⟩ : ∃ k, n = k + 1 := ⟨n - 1, by omega⟩
    rw [readValue, skipWs_text]
    obtain ⟨c, s, h, hc⟩ := jsonInt_head i
    have hp := digit_plain hc
    simp only [JOut.text]
    have hr := readInt_text i t ht
    rw [h, List.cons_append] at hr ⊢
    split
    · next heq => simp at heq; exact absurd heq.1 hp.2.2.2.1
    · next heq => simp at heq; exact absurd heq.1 hp.2.2.2.2.1
    · next heq => simp at heq; exact absurd heq.1 hp.2.2.2.2.2.1
    · next heq => simp at heq; exact absurd heq.1 hp.2.2.2.2.2.2
    · rw [hr]; rfl
  | .arr [], d, n, t, hn, ht => by
    obtain ⟨n, rfl⟩ : ∃ k, n = k + 1 := ⟨n - 1, by omega⟩
    rw [readValue, skipWs_text]
    simp [JOut.text, skipWs, isJsonWs]
  | .obj [], d, n, t, hn, ht => by
    obtain ⟨n, rfl⟩ : ∃ k, n = k + 1 := ⟨n - 1, by omega⟩
    rw [readValue, skipWs_text]
    simp [JOut.text, skipWs, isJsonWs]
  | .arr (w :: ws), d, n, t, hn, ht => by
    obtain ⟨n, rfl⟩ : ∃ k, n = k + 1 := ⟨n - 1, by omega⟩
    rw [readValue, skipWs_text]
    have hi := readItems_text w ws (d + 1) d n t (by
      simp only [JOut.text, List.length_cons, List.length_append] at hn; omega)
    simp only [JOut.text, List.cons_append, List.append_assoc, List.nil_append] at hi ⊢
    obtain ⟨r, hr, -⟩ := jsonLines_cons (d + 1) (w.text short (d + 1)) (JOut.texts short (d + 1) ws)
    obtain ⟨c, s, hc, hw, hb⟩ := jsonText_head short (d + 1) w
    have hs : skipWs (jsonLines (d + 1) (JOut.texts short (d + 1) (w :: ws)) ++ (newline d ++ ']' :: t)) =
        c :: (s ++ r ++ (newline d ++ ']' :: t)) := by
      rw [JOut.texts, hr, List.append_assoc, List.append_assoc, skipWs_newline, hc]
      simp only [List.cons_append, List.append_assoc]
      rw [skipWs_cons _ hw]
    rw [← readItems_skip, hs] at hi
    rw [hs]
    split
    · next heq => simp at heq; exact absurd heq.1 hb
    · rw [hi]; rfl
  | .obj ((k, w) :: ws), d, n, t, hn, ht => by
    obtain ⟨n, rfl⟩ : ∃ k, n = k + 1 := ⟨n - 1, by omega⟩
    rw [readValue, skipWs_text]
    have hi := readMembers_text k w ws (d + 1) d n t (by
      simp only [JOut.text, List.length_cons, List.length_append] at hn; omega)
    simp only [JOut.text, List.cons_append, List.append_assoc, List.nil_append] at hi ⊢
    obtain ⟨r, hr, -⟩ := jsonLines_cons (d + 1) (JOut.memberText short (d + 1) (k, w)) (JOut.memberTexts short (d + 1) ws)
    obtain ⟨s, hs⟩ : ∃ s, skipWs (jsonLines (d + 1) (JOut.memberTexts short (d + 1) ((k, w) :: ws)) ++ (newline d ++ '}' :: t)) =
        '"' :: s := by
      rw [JOut.memberTexts, hr, List.append_assoc, List.append_assoc, skipWs_newline, JOut.memberText, jsonString]
      simp only [List.cons_append]
      rw [skipWs_cons _ (by decide)]
      exact ⟨_, rfl⟩
    rw [← readMembers_skip, hs] at hi
    rw [hs]
    split
    · next heq => simp at heq
    · rw [hi]; rfl
termination_by v => sizeOf v
theorem readItems_text (v : JOut) (vs : List JOut) (d e n : Nat) (t : Str)
    (hn : (jsonLines d (JOut.texts short d (v :: vs))).length < n) :
    readItems n (jsonLines d (JOut.texts short d (v :: vs)) ++ newline e ++ ']' :: t) = some (v :: vs, t) := by
  obtain ⟨n, rfl⟩ : ∃ k, n = k + 1 := ⟨n - 1, by omega⟩
  obtain ⟨r, hr, hr'⟩ := jsonLines_cons d (v.text short d) (JOut.texts short d vs)
  rw [JOut.texts, hr] at hn ⊢
  have hl : 0 < (newline d).length := by simp [newline]
  simp only [List.length_append] at hn
  rw [readItems, ← readValue_skip, List.append_assoc, List.append_assoc, List.append_assoc, skipWs_newline,
    readValue_skip]
  rw [readValue_text v d n _ (by omega)]
  · rcases hr' with ⟨h1, rfl⟩ | ⟨h1, rfl⟩
    · have : vs = [] := by cases vs <;> simp [JOut.texts] at h1 ⊢
      subst this
      simp only [List.nil_append, skipWs_newline]
      rw [skipWs_cons _ (by decide)]
      rfl
    · match hvs : vs with
      | [] => simp [JOut.texts] at h1
      | w :: ws =>
        simp only [List.cons_append]
        rw [skipWs_cons _ (by decide)]
        simp only
        rw [← List.append_assoc, readItems_text w ws d e n t (by simp only [List.length_cons] at hn; omega)]
        rfl
  · rcases hr' with ⟨-, rfl⟩ | ⟨-, rfl⟩
    · exact noDigit_newline e _
    · exact noDigit_comma _
termination_by sizeOf (v :: vs)
decreasing_by all_goals (subst_vars; simp; try omega)
theorem readMembers_text (k : Str) (v : JOut) (vs : List (Str × JOut)) (d e n : Nat) (t : Str)
    (hn : (jsonLines d (JOut.memberTexts short d ((k, v) :: vs))).length < n) :
    readMembers n (jsonLines d (JOut.memberTexts short d ((k, v) :: vs)) ++ newline e ++ '}' :: t) =
      some ((k, v) :: vs, t) := by
  obtain ⟨n, rfl⟩ : ∃ k, n = k + 1 := ⟨n - 1, by omega⟩
  obtain ⟨r, hr, hr'⟩ := jsonLines_cons d (JOut.memberText short d (k, v)) (JOut.memberTexts short d vs)
  rw [JOut.memberTexts, hr] at hn ⊢
  have hl : 0 < (newline d).length := by simp [newline]
  simp only [List.length_append, JOut.memberText] at hn
  rw [readMembers, List.append_assoc, List.append_assoc, List.append_assoc, skipWs_newline, JOut.memberText, jsonString]
  simp only [List.cons_append, List.append_assoc, List.nil_append]
  rw [skipWs_cons _ (by decide)]
  simp only
  rw [readString_text]
  simp only
  have hc : skipWs (": ".toList ++ (v.text short d ++ (r ++ (newline e ++ '}' :: t)))) =
      ':' :: ' ' :: (v.text short d ++ (r ++ (newline e ++ '}' :: t))) := by
    simp [skipWs, isJsonWs]
  rw [hc]
  simp only
  have hsp : readValue n (' ' :: (v.text short d ++ (r ++ (newline e ++ '}' :: t)))) =
      readValue n (v.text short d ++ (r ++ (newline e ++ '}' :: t))) := by
    rw [← readValue_skip]
    conv_rhs => rw [← readValue_skip]
    simp [skipWs, isJsonWs]
  rw [hsp, readValue_text v d n _ (by omega)]
  · rcases hr' with ⟨h1, rfl⟩ | ⟨h1, rfl⟩
    · have : vs = [] := by cases vs <;> simp [JOut.memberTexts] at h1 ⊢
      subst this
      simp only [List.nil_append, skipWs_newline]
      rw [skipWs_cons _ (by decide)]
      rfl
    · match hvs : vs with
      | [] => simp [JOut.memberTexts] at h1
      | (k', w) :: ws =>
        simp only [List.cons_append]
        rw [skipWs_cons _ (by decide)]
        simp only
        rw [← List.append_assoc, readMembers_text k' w ws d e n t (by simp only [List.length_cons] at hn; omega)]
        rfl
  · rcases hr' with ⟨-, rfl⟩ | ⟨-, rfl⟩
    · exact noDigit_newline e _
    · exact noDigit_comma _
termination_by sizeOf ((k, v) :: vs)
decreasing_by all_goals (subst_vars; simp; try omega)
end

/-- Every value is read back from its text. -/
theorem readJson_text (v : JOut) : readJson (v.text short 0) = some v := by
  have := readValue_text short v 0 ((v.text short 0).length + 1) [] (by omega) (by intro c hc; simp at hc)
  rw [List.append_nil] at this
  unfold readJson
  rw [this]
  simp [skipWs]

theorem jsonText_inj {short' : Bool} {v w : JOut} (h : v.text short 0 = w.text short' 0) : v = w := by
  have h1 := readJson_text short v
  rw [h, readJson_text] at h1
  exact (Option.some.inj h1).symm

end Aql
