import Verif.Spec.Wildcards
import Verif.Proofs.Glob
import Mathlib.Data.List.Induction
/-! Lemmas about patterns: widening, and word boundaries around a word character. -/

namespace Aql
open Spec

variable {eqv : Char → Char → Prop}

theorem instance_wider (he : ∀ c, eqv c '\n' → c = '\n') {ts ts' : List PTok} (h : Wider ts ts') :
    ∀ {xs : Str}, Instance eqv ts xs → Instance eqv ts' xs := by
  induction h with
  | same => exact id
  | step _ _ ih1 ih2 => exact fun h => ih2 (ih1 h)
  | behind t _ ih =>
    intro xs h
    cases h with
    | lit h1 h2 => exact .lit h1 (ih h2)
    | one h1 h2 => exact .one h1 (ih h2)
    | many h1 h2 => exact .many h1 (ih h2)
  | anyChar ts hc =>
    intro xs h
    cases h with
    | lit h1 h2 => exact .one (fun hx => hc (he _ (hx ▸ h1))) h2
  | anyRun ts =>
    intro xs h
    cases h with
    | one h1 h2 => exact .many (run := [_]) (by simpa using fun h => h1 h.symm) h2
  | insert ts => exact fun h => .many (run := []) (by simp) h
  | merge ts =>
    intro xs h
    cases h with
    | many h1 h2 =>
      cases h2 with
      | many h3 h4 =>
        rw [← List.append_assoc]
        exact .many (by simp [h1, h3]) h4
  | swap ts =>
    intro xs h
    cases h with
    | one h1 h2 =>
      cases h2 with
      | @many run _ xs h3 h4 =>
        rename_i x
        -- the character and the run together form another run, followed by its last character
        have hne : x :: run ≠ [] := by simp
        have hn : '\n' ∉ x :: run := by simp [h3, h1.symm]
        have hs := List.dropLast_append_getLast hne
        have : x :: (run ++ xs) = (x :: run).dropLast ++ (x :: run).getLast hne :: xs := by
          conv_lhs => rw [← List.cons_append, ← hs]
          simp
        rw [this]
        refine .many (fun h => hn (List.dropLast_subset _ h)) (.one (fun h => hn ?_) h4)
        rw [← h]
        exact List.getLast_mem hne
  | swapBack ts =>
    intro xs h
    cases h with
    | @many run _ _ h1 h2 =>
      cases h2 with
      | @one x _ xs h3 h4 =>
        cases run with
        | nil => exact .one h3 (.many (run := []) (by simp) h4)
        | cons y run =>
          have : y :: run ++ x :: xs = y :: ((run ++ [x]) ++ xs) := by simp
          rw [this]
          simp only [List.mem_cons, not_or] at h1
          exact .one (fun h => h1.1 h.symm) (.many (by simp [h1.2, h3.symm]) h4)

theorem newline_not_word : ¬ WordChar '\n' := by unfold WordChar; decide

/-- Going left from a word character, a word boundary is met before any line break. -/
theorem boundary_left {c : Char} (hc : WordChar c) (pre rest : Str) :
    ∃ pre' run, pre = pre' ++ run ∧ '\n' ∉ run ∧ WordBoundary pre' (run ++ c :: rest) := by
  induction pre using List.reverseRecOn generalizing c rest with
  | nil => exact ⟨[], [], rfl, by simp, by simp [WordBoundary, hc]⟩
  | append_singleton p x ih =>
    by_cases hx : WordChar x
    · obtain ⟨pre', run, h1, h2, h3⟩ := ih hx (c :: rest)
      refine ⟨pre', run ++ [x], by simp [h1], ?_, by simpa using h3⟩
      simp only [List.mem_append, List.mem_singleton, not_or]
      exact ⟨h2, fun h => newline_not_word (h ▸ hx)⟩
    · exact ⟨p ++ [x], [], by simp, by simp, by simp [WordBoundary, hc, hx]⟩

/-- Going right from a word character, a word boundary is met before any line break. -/
theorem boundary_right {c : Char} (hc : WordChar c) (pre post : Str) :
    ∃ run post', post = run ++ post' ∧ '\n' ∉ run ∧ WordBoundary (pre ++ c :: run) post' := by
  induction post generalizing c pre with
  | nil => exact ⟨[], [], rfl, by simp, by simp [WordBoundary, hc]⟩
  | cons x q ih =>
    by_cases hx : WordChar x
    · obtain ⟨run, post', h1, h2, h3⟩ := ih hx (pre ++ [c])
      refine ⟨x :: run, post', by simp [h1], ?_, by simpa using h3⟩
      simp only [List.mem_cons, not_or]
      exact ⟨fun h => newline_not_word (h ▸ hx), h2⟩
    · exact ⟨[], x :: q, by simp, by simp, by simp [WordBoundary, hc, hx]⟩

/-- A word boundary lies beside a word character. -/
theorem boundary_word {a b : Str} (h : WordBoundary a b) : ∃ c ∈ a ++ b, WordChar c := by
  unfold WordBoundary at h
  by_cases h1 : ∃ c, a.getLast? = some c ∧ WordChar c
  · obtain ⟨c, hc, hw⟩ := h1
    exact ⟨c, List.mem_append_left _ (List.mem_of_getLast? hc), hw⟩
  · by_cases h2 : ∃ c, b.head? = some c ∧ WordChar c
    · obtain ⟨c, hc, hw⟩ := h2
      exact ⟨c, List.mem_append_right _ (List.mem_of_head? hc), hw⟩
    · exact absurd (iff_of_false h1 h2) h

theorem instance_stars {ts : List PTok} (h : ∀ t ∈ ts, t = .many) : Instance eqv ts [] := by
  induction ts with
  | nil => exact .nil
  | cons t ts ih =>
    obtain rfl := h t (by simp)
    exact .many (run := []) (by simp) (ih fun t ht => h t (by simp [ht]))

theorem instance_append {ts ts' : List PTok} {xs : Str} :
    Instance eqv (ts ++ ts') xs ↔ ∃ a b, xs = a ++ b ∧ Instance eqv ts a ∧ Instance eqv ts' b := by
  induction ts generalizing xs with
  | nil =>
    constructor
    · exact fun h => ⟨[], xs, rfl, .nil, h⟩
    · rintro ⟨a, b, rfl, h1, h2⟩; cases h1; exact h2
  | cons t ts ih =>
    constructor
    · intro h
      cases h with
      | lit h1 h2 => obtain ⟨a, b, rfl, h3, h4⟩ := ih.1 h2; exact ⟨_ :: a, b, rfl, .lit h1 h3, h4⟩
      | one h1 h2 => obtain ⟨a, b, rfl, h3, h4⟩ := ih.1 h2; exact ⟨_ :: a, b, rfl, .one h1 h3, h4⟩
      | many h1 h2 =>
        obtain ⟨a, b, rfl, h3, h4⟩ := ih.1 h2
        exact ⟨_ ++ a, b, (List.append_assoc ..).symm, .many h1 h3, h4⟩
    · rintro ⟨a, b, rfl, h1, h2⟩
      cases h1 with
      | lit h1 h3 => exact .lit h1 (ih.2 ⟨_, _, rfl, h3, h2⟩)
      | one h1 h3 => exact .one h1 (ih.2 ⟨_, _, rfl, h3, h2⟩)
      | many h1 h3 => rw [List.append_assoc]; exact .many h1 (ih.2 ⟨_, _, rfl, h3, h2⟩)

theorem word_newline : ¬ WordChar '\n' := by unfold WordChar; decide

theorem wordUpTo_iff {before after : Str} :
    WordUpTo before after ↔ ∃ a u, before = a ++ u ∧ '\n' ∉ u ∧ WordBoundary a (u ++ after) := by
  constructor
  · rintro ⟨a, u, rfl, hn, ⟨c, hc, hw⟩ | ⟨c, hc, hw⟩⟩
    · obtain ⟨u1, u2, rfl⟩ := List.append_of_mem hc
      obtain ⟨p, r, h1, h2, h3⟩ := boundary_left hw (a ++ u1) (u2 ++ after)
      refine ⟨p, r ++ c :: u2, ?_, ?_, by simpa using h3⟩
      · rw [← List.append_assoc, h1]; simp
      · simp only [List.mem_append, List.mem_cons, not_or] at hn ⊢
        exact ⟨h2, hn.2⟩
    · obtain ⟨after, rfl⟩ : ∃ t, after = c :: t := by
        cases after with
        | nil => cases hc
        | cons x t => cases hc; exact ⟨t, rfl⟩
      obtain ⟨p, r, h1, h2, h3⟩ := boundary_left hw (a ++ u) after
      exact ⟨p, r, h1, h2, h3⟩
  · rintro ⟨a, u, rfl, hn, hb⟩
    unfold WordBoundary at hb
    by_cases h : ∃ c, (u ++ after).head? = some c ∧ WordChar c
    · refine ⟨a, u, rfl, hn, ?_⟩
      obtain ⟨c, hc, hw⟩ := h
      cases u with
      | nil => exact .inr ⟨c, hc, hw⟩
      | cons x u => cases hc; exact .inl ⟨c, by simp, hw⟩
    · simp only [h, iff_false, not_not] at hb
      obtain ⟨c, hc, hw⟩ := hb
      obtain ⟨a, rfl⟩ := List.getLast?_eq_some_iff.1 hc
      refine ⟨a, c :: u, by simp, ?_, .inl ⟨c, by simp, hw⟩⟩
      simp only [List.mem_cons, not_or]
      exact ⟨fun h => word_newline (h ▸ hw), hn⟩

theorem wordFrom_iff {before after : Str} :
    WordFrom before after ↔ ∃ u b, after = u ++ b ∧ '\n' ∉ u ∧ WordBoundary (before ++ u) b := by
  constructor
  · rintro ⟨u, b, rfl, hn, ⟨c, hc, hw⟩ | ⟨c, hc, hw⟩⟩
    · obtain ⟨u1, u2, rfl⟩ := List.append_of_mem hc
      obtain ⟨r, q, h1, h2, h3⟩ := boundary_right hw (before ++ u1) (u2 ++ b)
      refine ⟨u1 ++ c :: r, q, ?_, ?_, by simpa using h3⟩
      · simp [h1]
      · simp only [List.mem_append, List.mem_cons, not_or] at hn ⊢
        exact ⟨hn.1, hn.2.1, h2⟩
    · obtain ⟨before, rfl⟩ := List.getLast?_eq_some_iff.1 hc
      obtain ⟨r, q, h1, h2, h3⟩ := boundary_right hw before (u ++ b)
      exact ⟨r, q, h1, h2, by simpa using h3⟩
  · rintro ⟨u, b, rfl, hn, hb⟩
    unfold WordBoundary at hb
    by_cases h : ∃ c, (before ++ u).getLast? = some c ∧ WordChar c
    · refine ⟨u, b, rfl, hn, ?_⟩
      obtain ⟨c, hc, hw⟩ := h
      cases u using List.reverseRecOn with
      | nil => exact .inr ⟨c, by simpa using hc, hw⟩
      | append_singleton u x =>
        rw [← List.append_assoc, List.getLast?_concat] at hc
        cases hc
        exact .inl ⟨c, by simp, hw⟩
    · simp only [h, false_iff, not_not] at hb
      obtain ⟨c, hc, hw⟩ := hb
      obtain ⟨b, rfl⟩ : ∃ t, b = c :: t := by
        cases b with
        | nil => cases hc
        | cons x t => cases hc; exact ⟨t, rfl⟩
      refine ⟨u ++ [c], b, by simp, ?_, .inl ⟨c, by simp, hw⟩⟩
      simp only [List.mem_append, List.mem_singleton, not_or]
      exact ⟨hn, fun h => word_newline (h ▸ hw)⟩

end Aql
