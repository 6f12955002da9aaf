import Verif.Proofs.JsonOut
/-! Texts written by Marshal are read back. -/

namespace Aql

open Spec

variable (short : Bool)

theorem jsonFlat_head (v : JOut) : ∃ c s, v.flat short = c :: s ∧ isJsonWs c = false ∧ c ≠ ']' := by
  cases v with
  | null => exact ⟨'n', "ull".toList, by simp [JOut.flat], by decide, by decide⟩
  | num i =>
    obtain ⟨c, s, h, hc⟩ := jsonInt_head i
    exact ⟨c, s, by simp [JOut.flat, h], (digit_plain hc).1, (digit_plain hc).2.1⟩
  | str s => exact ⟨'"', _, by simp only [JOut.flat, jsonString]; rfl, by decide, by decide⟩
  | arr vs => exact ⟨'[', _, by simp only [JOut.flat]; rfl, by decide, by decide⟩
  | obj vs => exact ⟨'{', _, by simp only [JOut.flat]; rfl, by decide, by decide⟩

theorem skipWs_flat (v : JOut) (t : Str) : skipWs (v.flat short ++ t) = v.flat short ++ t := by
  obtain ⟨c, s, h, hc, -⟩ := jsonFlat_head short v
  rw [h, List.cons_append, skipWs_cons _ hc]

theorem noDigit_char {c : Char} (t : Str) (h : isDig c = false) : NoDigit (c :: t) := by
  intro d hd; simp at hd; subst hd; exact h

theorem jsonCommas_cons (x : Str) (xs : List Str) : ∃ r, jsonCommas (x :: xs) = x ++ r ∧
    ((xs = [] ∧ r = []) ∨ (xs ≠ [] ∧ r = ',' :: jsonCommas xs)) := by
  cases xs with
  | nil => exact ⟨[], by simp [jsonCommas], .inl ⟨rfl, rfl⟩⟩
  | cons y ys => exact ⟨',' :: jsonCommas (y :: ys), by simp [jsonCommas], .inr ⟨by simp, rfl⟩⟩

mutual
theorem readValue_flat : ∀ (v : JOut) (n : Nat) (t : Str), (v.flat short).length < n → NoDigit t →
    readValue n (v.flat short ++ t) = some (v, t)
  | .null, n, t, hn, ht => by
    obtain ⟨n, rfl⟩ : ∃ k, n = k + 1 := ⟨n - 1, by omega⟩
    rw [readValue, skipWs_flat]
    simp [JOut.flat]
  | .str s, n, t, hn, ht => by
    obtain ⟨n, rfl⟩ : ∃ k, n = k + 1 := ⟨n - 1, by omega⟩
    rw [readValue, skipWs_flat]
    simp only [JOut.flat, jsonString, List.cons_append, List.append_assoc, List.nil_append]
    rw [readString_text]
    rfl
  | .num i, n, t, hn, ht => by
    obtain ⟨n, rfl⟩ : ∃ k, n = k + 1 := ⟨n - 1, by omega⟩
    rw [readValue, skipWs_flat]
    obtain ⟨c, s, h, hc⟩ := jsonInt_head i
    have hp := digit_plain hc
    simp only [JOut.flat]
    have hr := readInt_text i t ht
    rw [h, List.cons_append] at hr ⊢
    split
    · next heq => simp at heq; exact absurd heq.1 hp.2.2.2.1
    · next heq => simp at heq; exact absurd heq.1 hp.2.2.2.2.1
    · next heq => simp at heq; exact absurd heq.1 hp.2.2.2.2.2.1
    · next heq => simp at heq; exact absurd heq.1 hp.2.2.2.2.2.2
    · rw [hr]; rfl
  | .arr [], n, t, hn, ht => by
    obtain ⟨n, rfl⟩ : ∃ k, n = k + 1 := ⟨n - 1, by omega⟩
    rw [readValue, skipWs_flat]
    simp [JOut.flat, JOut.flats, jsonCommas, skipWs, isJsonWs]
  | .obj [], n, t, hn, ht => by
    obtain ⟨n, rfl⟩ : ∃ k, n = k + 1 := ⟨n - 1, by omega⟩
    rw [readValue, skipWs_flat]
    simp [JOut.flat, JOut.memberFlats, jsonCommas, skipWs, isJsonWs]
  | .arr (w :: ws), n, t, hn, ht => by
    obtain ⟨n, rfl⟩ : ∃ k, n = k + 1 := ⟨n - 1, by omega⟩
    rw [readValue, skipWs_flat]
    have hi := readItems_flat w ws n t (by
      simp only [JOut.flat, List.length_cons, List.length_append] at hn; omega)
    simp only [JOut.flat, List.cons_append, List.append_assoc, List.nil_append] at hi ⊢
    obtain ⟨r, hr, -⟩ := jsonCommas_cons (w.flat short) (JOut.flats short ws)
    obtain ⟨c, s, hc, hw, hb⟩ := jsonFlat_head short w
    have hs : skipWs (jsonCommas (JOut.flats short (w :: ws)) ++ (']' :: t)) = c :: (s ++ r ++ (']' :: t)) := by
      rw [JOut.flats, hr, List.append_assoc, hc]
      simp only [List.cons_append, List.append_assoc]
      rw [skipWs_cons _ hw]
    rw [← readItems_skip, hs] at hi
    rw [hs]
    split
    · next heq => simp at heq; exact absurd heq.1 hb
    · rw [hi]; rfl
  | .obj ((k, w) :: ws), n, t, hn, ht => by
    obtain ⟨n, rfl⟩ : ∃ k, n = k + 1 := ⟨n - 1, by omega⟩
    rw [readValue, skipWs_flat]
    have hi := readMembers_flat k w ws n t (by
      simp only [JOut.flat, List.length_cons, List.length_append] at hn; omega)
    simp only [JOut.flat, List.cons_append, List.append_assoc, List.nil_append] at hi ⊢
    obtain ⟨r, hr, -⟩ := jsonCommas_cons (jsonString short k ++ ':' :: w.flat short) (JOut.memberFlats short ws)
    obtain ⟨s, hs⟩ : ∃ s, skipWs (jsonCommas (JOut.memberFlats short ((k, w) :: ws)) ++ ('}' :: t)) = '"' :: s := by
      rw [JOut.memberFlats, hr, jsonString]
      simp only [List.cons_append]
      rw [skipWs_cons _ (by decide)]
      exact ⟨_, rfl⟩
    rw [← readMembers_skip, hs] at hi
    rw [hs]
    split
    · next heq => simp at heq
    · rw [hi]; rfl
termination_by v => sizeOf v
theorem readItems_flat (v : JOut) (vs : List JOut) (n : Nat) (t : Str)
    (hn : (jsonCommas (JOut.flats short (v :: vs))).length + 1 < n) :
    readItems n (jsonCommas (JOut.flats short (v :: vs)) ++ ']' :: t) = some (v :: vs, t) := by
  obtain ⟨n, rfl⟩ : ∃ k, n = k + 1 := ⟨n - 1, by omega⟩
  obtain ⟨r, hr, hr'⟩ := jsonCommas_cons (v.flat short) (JOut.flats short vs)
  rw [JOut.flats, hr] at hn ⊢
  simp only [List.length_append] at hn
  rw [readItems, List.append_assoc, readValue_flat v n _ (by omega)]
  · rcases hr' with ⟨h1, rfl⟩ | ⟨h1, rfl⟩
    · have : vs = [] := by cases vs <;> simp [JOut.flats] at h1 ⊢
      subst this
      simp only [List.nil_append]
      rw [skipWs_cons _ (by decide)]
      rfl
    · match hvs : vs with
      | [] => simp [JOut.flats] at h1
      | w :: ws =>
        simp only [List.cons_append]
        rw [skipWs_cons _ (by decide)]
        simp only
        rw [readItems_flat w ws n t (by simp only [List.length_cons] at hn; omega)]
        rfl
  · rcases hr' with ⟨-, rfl⟩ | ⟨-, rfl⟩
    · exact noDigit_char _ (by decide)
    · exact noDigit_comma _
termination_by sizeOf (v :: vs)
decreasing_by all_goals (subst_vars; simp; try omega)
theorem readMembers_flat (k : Str) (v : JOut) (vs : List (Str × JOut)) (n : Nat) (t : Str)
    (hn : (jsonCommas (JOut.memberFlats short ((k, v) :: vs))).length < n) :
    readMembers n (jsonCommas (JOut.memberFlats short ((k, v) :: vs)) ++ '}' :: t) = some ((k, v) :: vs, t) := by
  obtain ⟨n, rfl⟩ : ∃ k, n = k + 1 := ⟨n - 1, by omega⟩
  obtain ⟨r, hr, hr'⟩ := jsonCommas_cons (jsonString short k ++ ':' :: v.flat short) (JOut.memberFlats short vs)
  rw [JOut.memberFlats, hr] at hn ⊢
  simp only [List.length_append, List.length_cons, jsonString] at hn
  rw [readMembers, jsonString]
  simp only [List.cons_append, List.append_assoc, List.nil_append]
  rw [skipWs_cons _ (by decide)]
  simp only
  rw [readString_text]
  simp only
  rw [skipWs_cons _ (by decide)]
  simp only
  rw [readValue_flat v n _ (by omega)]
  · rcases hr' with ⟨h1, rfl⟩ | ⟨h1, rfl⟩
    · have : vs = [] := by cases vs <;> simp [JOut.memberFlats] at h1 ⊢
      subst this
      simp only [List.nil_append]
      rw [skipWs_cons _ (by decide)]
      rfl
    · match hvs : vs with
      | [] => simp [JOut.memberFlats] at h1
      | (k', w) :: ws =>
        simp only [List.cons_append]
        rw [skipWs_cons _ (by decide)]
        simp only
        rw [readMembers_flat k' w ws n t (by simp only [List.length_cons] at hn; omega)]
        rfl
  · rcases hr' with ⟨-, rfl⟩ | ⟨-, rfl⟩
    · exact noDigit_char _ (by decide)
    · exact noDigit_comma _
termination_by sizeOf ((k, v) :: vs)
decreasing_by all_goals (subst_vars; simp; try omega)
end

/-- Every value is read back from its text. -/
theorem readJson_flat (v : JOut) : readJson (v.flat short) = some v := by
  have := readValue_flat short v ((v.flat short).length + 1) [] (by omega) (by intro c hc; simp at hc)
  rw [List.append_nil] at this
  unfold readJson
  rw [this]
  simp [skipWs]

end Aql
