import Verif.Model.GraphLabel
import Verif.Model.Peg
import Verif.Spec.EscString
/-!
Property C84: the title of the query graph.
-/

namespace Aql

open Spec

/-- Nothing in the text has a meaning of its own in a label. -/
def Spec.PlainLabel (s : Str) : Prop :=
  '\\' ∉ s ∧ '\n' ∉ s ∧ ∀ pre y post, s = pre ++ '&' :: y :: post → refStart y = false

/-- Characters in all lines. -/
def Spec.shownChars (ls : List Str) : Nat := (ls.map List.length).sum

theorem shown_onFirst (c : Char) (ls : List Str) : shownChars (onFirst c ls) = shownChars ls + 1 := by
  cases ls <;> simp [onFirst, shownChars]; omega

theorem labelLines_esc (c : Char) (s : Str) : labelLines ('\\' :: c :: s) =
    if c = 'n' ∨ c = 'l' ∨ c = 'r' then (labelLines s).map ([] :: ·)
    else if c = 'G' ∨ c = 'L' ∨ c = 'N' ∨ c = 'E' ∨ c = 'T' ∨ c = 'H' then none
    else (labelLines s).map (onFirst c) := by
  rw [labelLines]

theorem labelLines_char {c : Char} (h : c ≠ '\\') (s : Str) : labelLines (c :: s) =
    if c = '\n' then (labelLines s).map ([] :: ·)
    else if c = '&' && s.head?.any refStart then none
    else (labelLines s).map (onFirst c) := by
  rw [labelLines, if_neg h]
  intro c' s' h' _
  exact absurd h' h

theorem labelLines_ne : ∀ (s : Str) (ls : List Str), labelLines s = some ls → ls ≠ []
  | [], ls, h => by rw [labelLines] at h; cases h; simp
  | [c], ls, h => by
    by_cases hc : c = '\\'
    · subst hc
      have : labelLines ['\\'] = some [[]] := by decide
      rw [this] at h; cases h; simp
    · rw [labelLines_char hc] at h
      split at h
      · obtain ⟨l, -, rfl⟩ := Option.map_eq_some_iff.1 h; simp
      · split at h
        · cases h
        · obtain ⟨l, -, rfl⟩ := Option.map_eq_some_iff.1 h
          cases l <;> simp [onFirst]
  | c :: d :: s, ls, h => by
    by_cases hc : c = '\\'
    · subst hc
      rw [labelLines_esc] at h
      split at h
      · obtain ⟨l, -, rfl⟩ := Option.map_eq_some_iff.1 h; simp
      · split at h
        · cases h
        · obtain ⟨l, -, rfl⟩ := Option.map_eq_some_iff.1 h
          cases l <;> simp [onFirst]
    · rw [labelLines_char hc] at h
      split at h
      · obtain ⟨l, -, rfl⟩ := Option.map_eq_some_iff.1 h; simp
      · split at h
        · cases h
        · obtain ⟨l, -, rfl⟩ := Option.map_eq_some_iff.1 h
          cases l <;> simp [onFirst]

theorem labelLines_le : ∀ (s : Str) (ls : List Str), labelLines s = some ls → shownChars ls ≤ s.length
  | [], ls, h => by rw [labelLines] at h; cases h; simp [shownChars]
  | [c], ls, h => by
    by_cases hc : c = '\\'
    · subst hc
      have : labelLines ['\\'] = some [[]] := by decide
      rw [this] at h; cases h; simp [shownChars]
    · rw [labelLines_char hc] at h
      have e : labelLines [] = some [[]] := by rw [labelLines]
      rw [e] at h
      split at h
      · cases h; simp [shownChars]
      · split at h
        · cases h
        · cases h; simp [shownChars, onFirst]
  | c :: d :: s, ls, h => by
    by_cases hc : c = '\\'
    · subst hc
      rw [labelLines_esc] at h
      split at h
      · obtain ⟨l, hl, rfl⟩ := Option.map_eq_some_iff.1 h
        have := labelLines_le s l hl
        simp only [shownChars, List.map_cons, List.sum_cons, List.length_nil, List.length_cons] at *
        omega
      · split at h
        · cases h
        · obtain ⟨l, hl, rfl⟩ := Option.map_eq_some_iff.1 h
          have := labelLines_le s l hl
          rw [shown_onFirst]
          simp only [List.length_cons]; omega
    · rw [labelLines_char hc] at h
      split at h
      · obtain ⟨l, hl, rfl⟩ := Option.map_eq_some_iff.1 h
        have := labelLines_le (d :: s) l hl
        simp only [shownChars, List.map_cons, List.sum_cons, List.length_nil, List.length_cons] at *
        omega
      · split at h
        · cases h
        · obtain ⟨l, hl, rfl⟩ := Option.map_eq_some_iff.1 h
          have := labelLines_le (d :: s) l hl
          rw [shown_onFirst]
          simp only [List.length_cons] at *; omega

theorem plainLabel_cons {c : Char} {s : Str} (hc : c ≠ '\\') (hn : c ≠ '\n') : PlainLabel (c :: s) ↔
    (∀ y ∈ s.head?, c = '&' → refStart y = false) ∧ PlainLabel s := by
  constructor
  · rintro ⟨h1, h2, h3⟩
    refine ⟨?_, fun h => h1 (by simp [h]), fun h => h2 (by simp [h]), ?_⟩
    · intro y hy e
      cases s with
      | nil => simp at hy
      | cons z s => simp at hy; subst hy; exact h3 [] z s (by rw [e]; rfl)
    · intro pre y post e
      exact h3 (c :: pre) y post (by simp [e])
  · rintro ⟨h1, h2, h3, h4⟩
    refine ⟨by simp [h2, Ne.symm hc], by simp [h3, Ne.symm hn], ?_⟩
    intro pre y post e
    cases pre with
    | nil => simp at e; obtain ⟨rfl, rfl⟩ := e; exact h1 y (by simp) rfl
    | cons z pre => simp at e; exact h4 pre y post e.2

/-- **C84, exactly.** The title of the graph shows the query, on one line, iff the query contains no
backslash, no line break and no `&` that begins a character reference. -/
theorem C84_title_exact : ∀ q : Str, labelLines (graphTitle q) = some [q] ↔ PlainLabel q
  | [] => by
    have e : labelLines (graphTitle []) = some [[]] := by rw [graphTitle, labelLines]
    rw [e]; simp [PlainLabel]
  | c :: s => by
    have ih := C84_title_exact s
    rw [graphTitle] at ih ⊢
    by_cases hc : c = '\\'
    · subst hc
      constructor
      · intro h
        exfalso
        cases s with
        | nil =>
          have : labelLines ['\\'] = some [[]] := by decide
          rw [this] at h; simp at h
        | cons d s =>
          rw [labelLines_esc] at h
          split at h
          · obtain ⟨l, hl, he⟩ := Option.map_eq_some_iff.1 h
            simp only [List.cons.injEq] at he
            exact absurd he.1 (by simp)
          · split at h
            · cases h
            · obtain ⟨l, hl, he⟩ := Option.map_eq_some_iff.1 h
              have h1 := labelLines_le s l hl
              have h2 := shown_onFirst d l
              rw [he] at h2
              simp only [shownChars, List.map_cons, List.map_nil, List.sum_cons, List.sum_nil, List.length_cons] at *
              omega
      · intro h; exact absurd (by simp) h.1
    · by_cases hn : c = '\n'
      · subst hn
        rw [labelLines_char hc, if_pos rfl]
        constructor
        · intro h
          obtain ⟨l, hl, he⟩ := Option.map_eq_some_iff.1 h
          simp only [List.cons.injEq] at he
          exact absurd he.1 (by simp)
        · intro h; exact absurd (by simp) h.2.1
      · rw [labelLines_char hc, if_neg hn, plainLabel_cons hc hn, ← ih]
        by_cases h2 : (decide (c = '&') && s.head?.any refStart) = true
        · rw [if_pos h2]
          simp only [Bool.and_eq_true, decide_eq_true_eq] at h2
          obtain ⟨rfl, h2⟩ := h2
          constructor
          · intro h; cases h
          · rintro ⟨h, -⟩
            cases s with
            | nil => simp at h2
            | cons y s => have := h y (by simp) rfl; simp [this] at h2
        · rw [if_neg h2]
          constructor
          · intro h
            obtain ⟨l, hl, he⟩ := Option.map_eq_some_iff.1 h
            refine ⟨?_, ?_⟩
            · rintro y hy rfl
              cases s with
              | nil => simp at hy
              | cons z s => simp at hy; subst hy; simpa using h2
            · cases l with
              | nil => exact absurd rfl (labelLines_ne _ _ hl)
              | cons x xs =>
                simp only [onFirst, List.cons.injEq, true_and] at he
                rw [hl, he.1, he.2]
          · intro h
            rw [h.2]; rfl

-- a query with a set of values, quotes and an ampersand
example : PlainLabel "a:(\"x & y\", 1.0.0.0/8) AND !b:exists".toList := by
  rw [← C84_title_exact]; decide +kernel

/-- **C84 (refuted).** The pattern of `a:/\d+/` is shown without its backslash, `a:/\n/` on two lines. -/
theorem C84_title_refuted : labelLines (graphTitle "a:/\\d+/".toList) = some ["a:/d+/".toList] ∧
    labelLines (graphTitle "a:/\\n/".toList) = some ["a:/".toList, "/".toList] ∧
    (∃ n, grammarOut testEnv ("a:/\\d+/".toList.map .ok) = some (.ok n)) := by
  refine ⟨by decide, by decide, ?_⟩
  have h : ((grammarOut testEnv ("a:/\\d+/".toList.map .ok)).bind Except.toOption).isSome = true := by decide +kernel
  revert h
  rcases grammarOut testEnv ("a:/\\d+/".toList.map .ok) with _ | ⟨e | n⟩
  · intro h; cases h
  · intro h; cases h
  · intro _; exact ⟨n, rfl⟩

end Aql
