import Verif.Proofs.Language
import Verif.Proofs.Digits
import Verif.Spec.Depth
/-!
The depth of the parentheses of a query, counted in its text.
-/

namespace Aql

open Spec

variable {E : Env} {pre a b s t : Str}

theorem Spec.TextIn.mono {d d' : Nat} {L : Level} {n : Node} (h : TextIn E d L pre a n) (hd : d ≤ d') :
    TextIn E d' L pre a n := by
  induction h generalizing d' with
  | group h1 _ h3 ih =>
    obtain ⟨e, rfl⟩ : ∃ e, d' = e + 1 := ⟨d' - 1, by omega⟩
    exact .group h1 (ih (by omega)) h3
  | noArgs h1 h2 h3 h4 h5 => exact .noArgs h1 h2 h3 h4 h5
  | compare h1 h2 h3 h4 h5 h6 h7 => exact .compare h1 h2 h3 h4 h5 h6 h7
  | notCmp _ ih => exact .notCmp (ih hd)
  | not h _ ih => exact .not h (ih hd)
  | andNot _ ih => exact .andNot (ih hd)
  | and _ h2 h3 _ ih1 ih2 => exact .and (ih1 hd) h2 h3 (ih2 hd)
  | orAnd _ ih => exact .orAnd (ih hd)
  | or _ h2 h3 _ ih1 ih2 => exact .or (ih1 hd) h2 h3 (ih2 hd)

theorem text_count {L : Level} {n : Node} (h : Text E L pre a n) :
    ∃ d, d ≤ a.count '(' ∧ TextIn E d L pre a n := by
  induction h with
  | group h1 _ h3 ih =>
    obtain ⟨d, hd, ih⟩ := ih
    refine ⟨d + 1, ?_, .group h1 ih h3⟩
    simp only [List.count_cons_self, List.count_append]
    omega
  | noArgs h1 h2 h3 h4 h5 => exact ⟨0, Nat.zero_le _, .noArgs h1 h2 h3 h4 h5⟩
  | compare h1 h2 h3 h4 h5 h6 h7 => exact ⟨0, Nat.zero_le _, .compare h1 h2 h3 h4 h5 h6 h7⟩
  | notCmp _ ih => obtain ⟨d, hd, ih⟩ := ih; exact ⟨d, hd, .notCmp ih⟩
  | not h _ ih =>
    obtain ⟨d, hd, ih⟩ := ih
    exact ⟨d, by rw [List.count_append]; omega, .not h ih⟩
  | andNot _ ih => obtain ⟨d, hd, ih⟩ := ih; exact ⟨d, hd, .andNot ih⟩
  | and _ h2 h3 _ ih1 ih2 =>
    obtain ⟨d, hd, ih1⟩ := ih1
    obtain ⟨e, he, ih2⟩ := ih2
    refine ⟨max d e, ?_, .and (ih1.mono (by omega)) h2 h3 (ih2.mono (by omega))⟩
    simp only [List.count_append]
    omega
  | orAnd _ ih => obtain ⟨d, hd, ih⟩ := ih; exact ⟨d, hd, .orAnd ih⟩
  | or _ h2 h3 _ ih1 ih2 =>
    obtain ⟨d, hd, ih1⟩ := ih1
    obtain ⟨e, he, ih2⟩ := ih2
    refine ⟨max d e, ?_, .or (ih1.mono (by omega)) h2 h3 (ih2.mono (by omega))⟩
    simp only [List.count_append]
    omega

/-- Neither kind of parenthesis. -/
def ParenFree (s : Str) : Prop := ∀ c ∈ s, c ≠ '(' ∧ c ≠ ')'

theorem pfree_nil : ParenFree [] := by intro c hc; cases hc

theorem pfree_append : ParenFree (a ++ b) ↔ ParenFree a ∧ ParenFree b := by
  unfold ParenFree
  simp only [List.mem_append]
  exact ⟨fun h => ⟨fun c hc => h c (.inl hc), fun c hc => h c (.inr hc)⟩,
    fun h c hc => hc.elim (h.1 c) (h.2 c)⟩

theorem pfree_cons {c : Char} : ParenFree (c :: a) ↔ (c ≠ '(' ∧ c ≠ ')') ∧ ParenFree a := by
  unfold ParenFree
  simp only [List.mem_cons, forall_eq_or_imp]

theorem pfree_ws (h : Ws a) : ParenFree a := by
  intro c hc
  have := h c hc
  unfold IsWs at this
  rcases this with rfl | rfl | rfl | rfl <;> decide

theorem pfree_digits (h : AllDigits a) : ParenFree a := by
  intro c hc
  have := h c hc
  constructor <;> rintro rfl <;> revert this <;> decide

theorem pfree_numeral (n : Nat) : ParenFree (numeral n) := by
  intro c hc
  have := numeral_digits n c hc
  constructor <;> rintro rfl <;> revert this <;> decide

theorem pfree_date {x : Date} (h : DateText t x) : ParenFree t := by
  obtain ⟨a, b, c, ha, -, hb, -, hc, -, rfl, -⟩ := h
  simp only [pfree_append, pfree_cons]
  exact ⟨pfree_digits ha, by decide, pfree_digits hb, by decide, pfree_digits hc⟩

theorem pfree_minus (h : Minus t) : ParenFree t := by
  rcases h with rfl | rfl
  · exact pfree_nil
  · simp only [pfree_cons]
    exact ⟨by decide, pfree_nil⟩

theorem pfree_lit {v : Val} (h : Lit E pre t v) (hq : '"' ∉ t) (hs : '/' ∉ t) : ParenFree t := by
  cases h with
  | string _ ht => subst ht; simp at hq
  | regex _ ht => subst ht; simp at hs
  | stamp h =>
    obtain ⟨dt, x, n, ct, secs, ft, ns, zt, off, hd, -, -, ⟨h, m, sec, hh, -, hm, -, hsec, -, rfl, -⟩, hf, hz, rfl, -⟩ := h
    have hft : ParenFree ft := by
      cases hf with
      | none => exact pfree_nil
      | frac _ h => rw [pfree_cons]; exact ⟨by decide, pfree_digits h⟩
    have hzt : ParenFree zt := by
      cases hz with
      | utc => simp only [pfree_cons]; exact ⟨by decide, pfree_nil⟩
      | offset h1 _ h2 _ _ _ hsg =>
        simp only [pfree_cons, pfree_append]
        exact ⟨by rcases hsg with rfl | rfl <;> decide, pfree_digits h1, by decide, pfree_digits h2⟩
    simp only [pfree_append, pfree_cons]
    exact ⟨pfree_date hd, by decide, ⟨pfree_digits hh, by decide, pfree_digits hm, by decide, pfree_digits hsec⟩, hft, hzt⟩
  | day h => obtain ⟨x, h, -⟩ := h; exact pfree_date h
  | address h =>
    obtain ⟨w, x, y, z, -, -, -, -, rfl, -⟩ := h
    simp only [pfree_append, pfree_cons]
    exact ⟨pfree_numeral _, by decide, pfree_numeral _, by decide, pfree_numeral _, by decide, pfree_numeral _⟩
  | block _ _ ht => subst ht; simp at hs
  | float hm _ ha _ hb ht =>
    subst ht
    simp only [pfree_append, pfree_cons]
    exact ⟨pfree_minus hm, pfree_digits ha, by decide, pfree_digits hb⟩
  | int hm _ ha ht =>
    subst ht
    simp only [pfree_append]
    exact ⟨pfree_minus hm, pfree_digits ha⟩
  | true_ => unfold ParenFree; decide
  | false_ => unfold ParenFree; decide

theorem pfree_piece {x : Str} (h : Piece E t x) (hq : '"' ∉ t) : ParenFree t := by
  cases h with
  | quoted => simp at hq
  | bare _ h =>
    intro c hc
    have := h c hc
    constructor <;> rintro rfl <;> unfold FieldChar at this <;> rw [goLower_ascii (by decide)] at this <;>
      revert this <;> decide
  | star => unfold ParenFree; decide

theorem pfree_path {xs : List Str} (h : Path E t xs) (hq : '"' ∉ t) : ParenFree t := by
  induction h with
  | one h => exact pfree_piece h hq
  | cons h _ ih =>
    simp only [List.mem_append, List.mem_cons, not_or] at hq
    rw [pfree_append, pfree_cons]
    exact ⟨pfree_piece h hq.1, by decide, ih hq.2.2⟩

theorem pfree_items {vs : List Val} (h : Items E pre t vs) (hq : '"' ∉ t) (hs : '/' ∉ t) : ParenFree t := by
  induction h with
  | one h => exact pfree_lit h hq hs
  | cons h h1 h2 _ ih =>
    simp only [List.mem_append, List.mem_cons, not_or] at hq hs
    simp only [pfree_append, pfree_cons]
    exact ⟨pfree_lit h hq.1 hs.1, pfree_ws h1, by decide, pfree_ws h2, ih hq.2.2.2.2 hs.2.2.2.2⟩

theorem deepest_ge (l : Nat) (s : Str) : l ≤ deepest l s := by
  cases s <;> unfold deepest <;> omega

theorem deepest_pfree (h : ParenFree a) (l : Nat) : deepest l (a ++ b) = deepest l b := by
  induction a with
  | nil => rfl
  | cons c a ih =>
    obtain ⟨⟨h1, h2⟩, h⟩ := pfree_cons.1 h
    rw [List.cons_append, deepest, if_neg h1, if_neg h2, ih h]
    have := deepest_ge l b
    omega

theorem deepest_open (l : Nat) : deepest l ('(' :: s) = deepest (l + 1) s := by
  rw [deepest, if_pos rfl]
  have := deepest_ge (l + 1) s
  omega

theorem deepest_close (l : Nat) : deepest (l + 1) (')' :: s) = max (l + 1) (deepest l s) := by
  rw [deepest, if_neg (by decide), if_pos rfl, Nat.add_sub_cancel]

theorem notWord_pfree (h : NotWord a) : ParenFree a := by
  cases h with
  | word h => simp only [pfree_cons]; exact ⟨by decide, by decide, by decide, pfree_ws h.1⟩
  | bang h => simp only [pfree_cons]; exact ⟨by decide, pfree_ws h⟩

theorem text_deepest {L : Level} {n : Node} (h : Text E L pre a n) (hq : '"' ∉ a) (hs : '/' ∉ a) :
    ∃ d, TextIn E d L pre a n ∧ ∀ l b, max (l + d) (deepest l b) ≤ deepest l (a ++ b) := by
  induction h with
  | @group pre w1 s w2 n h1 _ h3 ih =>
    simp only [List.mem_append, List.mem_cons, not_or] at hq hs
    obtain ⟨d, ih, hd⟩ := ih hq.2.2.1 hs.2.2.1
    refine ⟨d + 1, .group h1 ih h3, fun l b => ?_⟩
    have e : '(' :: (w1 ++ (s ++ (w2 ++ [')']))) ++ b = '(' :: (w1 ++ (s ++ (w2 ++ ')' :: b))) := by simp
    rw [e, deepest_open, deepest_pfree (pfree_ws h1)]
    have := hd (l + 1) (w2 ++ ')' :: b)
    rw [deepest_pfree (pfree_ws h3), deepest_close] at this
    omega
  | @noArgs pre p xs w1 w2 o op t h1 h2 h3 h4 h5 =>
    refine ⟨0, .noArgs h1 h2 h3 h4 h5, fun l b => ?_⟩
    subst h5
    simp only [List.mem_append, List.mem_cons, not_or] at hq hs
    have hb : ParenFree (p ++ (w1 ++ ':' :: (w2 ++ o))) := by
      simp only [pfree_append, pfree_cons]
      exact ⟨pfree_path h1 hq.1, pfree_ws h2, by decide, pfree_ws h3, by cases h4 <;> unfold ParenFree <;> decide⟩
    rw [deepest_pfree hb]
    have := deepest_ge l b
    omega
  | @compare pre p xs w1 w2 o op w3 s vs t h1 h2 h3 h4 h5 h6 h7 =>
    refine ⟨0, .compare h1 h2 h3 h4 h5 h6 h7, fun l b => ?_⟩
    subst h7
    simp only [List.mem_append, List.mem_cons, not_or] at hq hs
    have hb : ParenFree (p ++ (w1 ++ ':' :: (w2 ++ (o ++ w3)))) := by
      simp only [pfree_append, pfree_cons]
      exact ⟨pfree_path h1 hq.1, pfree_ws h2, by decide, pfree_ws h3,
        by cases h4 <;> unfold ParenFree <;> decide, pfree_ws h5⟩
    have e : p ++ (w1 ++ ':' :: (w2 ++ (o ++ (w3 ++ s)))) ++ b = p ++ (w1 ++ ':' :: (w2 ++ (o ++ w3))) ++ (s ++ b) := by
      simp
    rw [e, deepest_pfree hb]
    have := deepest_ge l b
    cases h6 with
    | one h => rw [deepest_pfree (pfree_lit h hq.2.2.2.2.2.2 hs.2.2.2.2.2.2)]; omega
    | @list u1 u2 x _ g1 g2 _ g3 =>
      simp only [List.mem_append, List.mem_cons, not_or] at hq hs
      have e : '(' :: (u1 ++ (x ++ (u2 ++ [')']))) ++ b = '(' :: (u1 ++ (x ++ (u2 ++ ')' :: b))) := by simp
      rw [e, deepest_open, deepest_pfree (pfree_ws g1),
        deepest_pfree (pfree_items g2 hq.2.2.2.2.2.2.2.2.1 hs.2.2.2.2.2.2.2.2.1), deepest_pfree (pfree_ws g3), deepest_close]
      omega
  | notCmp _ ih => obtain ⟨d, ih, hd⟩ := ih hq hs; exact ⟨d, .notCmp ih, hd⟩
  | not h _ ih =>
    simp only [List.mem_append, not_or] at hq hs
    obtain ⟨d, ih, hd⟩ := ih hq.2 hs.2
    refine ⟨d, .not h ih, fun l b => ?_⟩
    rw [List.append_assoc, deepest_pfree (notWord_pfree h)]
    exact hd l b
  | andNot _ ih => obtain ⟨d, ih, hd⟩ := ih hq hs; exact ⟨d, .andNot ih, hd⟩
  | @and pre x l' w1 w2 y r _ h2 h3 _ ih1 ih2 =>
    simp only [List.mem_append, not_or] at hq hs
    obtain ⟨d, ih1, hd⟩ := ih1 hq.1 hs.1
    obtain ⟨e, ih2, he⟩ := ih2 hq.2.2.2.2 hs.2.2.2.2
    refine ⟨max d e, .and (ih1.mono (by omega)) h2 h3 (ih2.mono (by omega)), fun l b => ?_⟩
    have hb : ParenFree (w1 ++ ("AND".toList ++ w2)) := by
      simp only [pfree_append]
      exact ⟨pfree_ws h2.1, by unfold ParenFree; decide, pfree_ws h3.1⟩
    have := hd l (w1 ++ ("AND".toList ++ w2) ++ (y ++ b))
    rw [deepest_pfree hb] at this
    have := he l b
    have e : x ++ (w1 ++ ("AND".toList ++ (w2 ++ y))) ++ b = x ++ (w1 ++ ("AND".toList ++ w2) ++ (y ++ b)) := by simp
    rw [e]
    omega
  | orAnd _ ih => obtain ⟨d, ih, hd⟩ := ih hq hs; exact ⟨d, .orAnd ih, hd⟩
  | @or pre x l' w1 w2 y r _ h2 h3 _ ih1 ih2 =>
    simp only [List.mem_append, not_or] at hq hs
    obtain ⟨d, ih1, hd⟩ := ih1 hq.1 hs.1
    obtain ⟨e, ih2, he⟩ := ih2 hq.2.2.2.2 hs.2.2.2.2
    refine ⟨max d e, .or (ih1.mono (by omega)) h2 h3 (ih2.mono (by omega)), fun l b => ?_⟩
    have hb : ParenFree (w1 ++ ("OR".toList ++ w2)) := by
      simp only [pfree_append]
      exact ⟨pfree_ws h2.1, by unfold ParenFree; decide, pfree_ws h3.1⟩
    have := hd l (w1 ++ ("OR".toList ++ w2) ++ (y ++ b))
    rw [deepest_pfree hb] at this
    have := he l b
    have e : x ++ (w1 ++ ("OR".toList ++ (w2 ++ y))) ++ b = x ++ (w1 ++ ("OR".toList ++ w2) ++ (y ++ b)) := by simp
    rw [e]
    omega

end Aql
