import Mathlib.Tactic.IntervalCases
import Mathlib.Data.List.Induction
import Mathlib.Tactic.Linarith
import Verif.Model.Basic
import Verif.Spec.Net
/-! Digit strings and decimal numerals. -/

namespace Aql

open Spec

theorem isDig_iff (c : Char) : isDig c = true ↔ '0' ≤ c ∧ c ≤ '9' := by
  simp [isDig]

theorem char_le_iff (a b : Char) : a ≤ b ↔ a.toNat ≤ b.toNat := by
  rw [Char.le_def]; exact UInt32.le_iff_toNat_le

theorem isDig_toNat (c : Char) : isDig c = true ↔ 48 ≤ c.toNat ∧ c.toNat ≤ 57 := by
  rw [isDig_iff, char_le_iff, char_le_iff]; rfl

theorem digVal_lt {c : Char} (h : isDig c = true) : digVal c < 10 := by
  rw [isDig_toNat] at h
  have : ('0' : Char).toNat = 48 := rfl
  unfold digVal; omega

theorem digitChar_digVal {c : Char} (h : isDig c = true) : Nat.digitChar (digVal c) = c := by
  rw [isDig_toNat] at h
  have h0 : ('0' : Char).toNat = 48 := rfl
  have hc : c = Char.ofNat c.toNat := (Char.ofNat_toNat c).symm
  obtain ⟨n, hn⟩ : ∃ n, c.toNat = n := ⟨_, rfl⟩
  rw [hn] at h hc
  unfold digVal
  rw [hn, h0, hc]
  obtain ⟨h1, h2⟩ := h
  interval_cases n <;> rfl

theorem isDig_digitChar {n : Nat} (h : n < 10) : isDig (Nat.digitChar n) = true := by
  interval_cases n <;> rfl

theorem digVal_digitChar {n : Nat} (h : n < 10) : digVal (Nat.digitChar n) = n := by
  interval_cases n <;> rfl

theorem natOfDigits_append (s t : Str) :
    natOfDigits (s ++ t) = t.foldl (fun a c => a * 10 + digVal c) (natOfDigits s) := by
  simp [natOfDigits]

theorem natOfDigits_snoc (s : Str) (c : Char) : natOfDigits (s ++ [c]) = natOfDigits s * 10 + digVal c := by
  simp [natOfDigits]

theorem foldl_digits_ge (s : Str) (a : Nat) : a ≤ s.foldl (fun a c => a * 10 + digVal c) a := by
  induction s generalizing a with
  | nil => simp
  | cons c s ih => exact le_trans (by dsimp only; omega) (ih _)

theorem natOfDigits_pos {c : Char} {s : Str} (hc : isDig c = true) (h0 : c ≠ '0') :
    0 < natOfDigits (c :: s) := by
  have h1 : 0 < digVal c := by
    rcases Nat.eq_zero_or_pos (digVal c) with h | h
    · exact absurd (by rw [← digitChar_digVal hc, h]; rfl) h0
    · exact h
  have h2 := foldl_digits_ge s (digVal c)
  simp only [natOfDigits, List.foldl_cons, Nat.zero_mul, Nat.zero_add]
  omega

/-- Numeral of the value of a digit string without superfluous zeros. -/
theorem numeral_natOfDigits (s : Str) (hd : ∀ c ∈ s, isDig c = true) (hne : s ≠ [])
    (hz : 1 < s.length → s.head? ≠ some '0') : numeral (natOfDigits s) = s := by
  induction s using List.reverseRecOn with
  | nil => exact absurd rfl hne
  | append_singleton t c ih =>
    have hc : isDig c = true := hd c (by simp)
    rcases t with _ | ⟨a, t⟩
    · have : natOfDigits [c] = digVal c := by simp [natOfDigits]
      rw [List.nil_append, this, numeral, Nat.toDigits_of_lt_base (digVal_lt hc), digitChar_digVal hc]
    · have ha : isDig a = true := hd a (by simp)
      have hz' : a ≠ '0' := by
        have := hz (by simp)
        simpa using this
      have ih := ih (fun x hx => hd x (by simp only [List.mem_append]; exact Or.inl hx)) (by simp)
        (fun _ => by simpa using hz')
      rw [natOfDigits_snoc, Nat.mul_comm, numeral,
        ← Nat.toDigits_append_toDigits (by norm_num) (natOfDigits_pos ha hz') (digVal_lt hc),
        Nat.toDigits_of_lt_base (digVal_lt hc), digitChar_digVal hc]
      rw [numeral] at ih
      rw [ih]

theorem foldl_digits_eq (s : Str) (a : Nat) :
    s.foldl (fun a c => a * 10 + digVal c) a = Nat.ofDigitChars 10 s a := by
  induction s generalizing a with
  | nil => rfl
  | cons c s ih =>
    rw [List.foldl_cons, ih, Nat.ofDigitChars_cons]
    congr 1
    simp [digVal, Nat.mul_comm]

theorem natOfDigits_numeral (n : Nat) : natOfDigits (numeral n) = n := by
  rw [natOfDigits, foldl_digits_eq, numeral, Nat.ofDigitChars_ten_toDigits]

theorem numeral_digits (n : Nat) : ∀ c ∈ numeral n, isDig c = true := by
  intro c hc
  have := Nat.isDigit_of_mem_toDigits (b := 10) (by norm_num) (by norm_num) hc
  rw [isDig_toNat]
  simp only [Char.isDigit, Bool.and_eq_true, decide_eq_true_eq] at this
  have h1 := this.1
  have h2 := this.2
  rw [ge_iff_le, UInt32.le_iff_toNat_le] at h1
  rw [UInt32.le_iff_toNat_le] at h2
  exact ⟨h1, h2⟩

theorem numeral_ne_nil (n : Nat) : numeral n ≠ [] := Nat.toDigits_ne_nil

/-- A numeral with more than one digit does not begin with zero. -/
theorem numeral_head (n : Nat) : 1 < (numeral n).length → (numeral n).head? ≠ some '0' := by
  induction n using Nat.strongRecOn with
  | _ n ih =>
    intro hlen
    unfold numeral at *
    rw [Nat.toDigits_eq_if (by norm_num)] at hlen ⊢
    split at hlen
    · simp at hlen
    · rename_i hn
      rw [if_neg hn]
      rw [List.head?_append, Option.or_of_isSome (by simp)]
      by_cases h2 : 1 < (Nat.toDigits 10 (n / 10)).length
      · exact ih (n / 10) (by omega) h2
      · have h1 : (Nat.toDigits 10 (n / 10)).length ≤ 1 := by omega
        rw [Nat.length_toDigits_le_iff (by norm_num) (by norm_num)] at h1
        rw [Nat.toDigits_of_lt_base (by omega)]
        have : 1 ≤ n / 10 := by omega
        have h9 : n / 10 < 10 := by omega
        obtain ⟨k, hk⟩ : ∃ k, n / 10 = k := ⟨_, rfl⟩
        rw [hk] at this h9 ⊢
        interval_cases k <;> simp

theorem numeral_length_le {n k : Nat} (hk : 0 < k) : (numeral n).length ≤ k ↔ n < 10 ^ k :=
  Nat.length_toDigits_le_iff (by norm_num) hk

theorem numeral_inj {m n : Nat} (h : numeral m = numeral n) : m = n := by
  rw [← natOfDigits_numeral m, h, natOfDigits_numeral]

end Aql
