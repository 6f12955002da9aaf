import Verif.Spec.Layout
import Verif.Proofs.Trees
/-!
Layouts are queries; every query is a layout.
-/

namespace Aql

open Spec

variable {E : Env} {pre s : Str}

theorem lit_move {p p' t : Str} {v : Val} (h : Lit E p t v) : ∃ v', Lit E p' t v' ∧ unplaced v' = unplaced v := by
  cases h with
  | string h1 h2 => exact ⟨_, .string h1 h2, rfl⟩
  | regex h1 h2 h3 h4 h5 => exact ⟨_, .regex h1 h2 h3 h4 h5, rfl⟩
  | stamp h => exact ⟨_, .stamp h, rfl⟩
  | day h => exact ⟨_, .day h, rfl⟩
  | address h => exact ⟨_, .address h, rfl⟩
  | block h1 h2 h3 => exact ⟨_, .block h1 h2 h3, rfl⟩
  | float h1 h2 h3 h4 h5 h6 h7 h8 => exact ⟨_, .float h1 h2 h3 h4 h5 h6 h7 h8, rfl⟩
  | int h1 h2 h3 h4 h5 h6 h7 => exact ⟨_, .int h1 h2 h3 h4 h5 h6 h7, rfl⟩
  | true_ => exact ⟨_, .true_, rfl⟩
  | false_ => exact ⟨_, .false_, rfl⟩

theorem laidItems_items {ls : List (Str × Val)} (h : LaidItems E ls s) : ∀ pre, ∃ vs, Items E pre s vs ∧
    vs.map unplaced = ls.map fun l => unplaced l.2 := by
  induction h with
  | one h =>
    intro pre
    obtain ⟨v', h1, h2⟩ := lit_move (p' := pre) h
    exact ⟨[v'], .one h1, by simp [h2]⟩
  | @cons t v ls w1 w2 s h hw1 hw2 _ ih =>
    intro pre
    obtain ⟨v', h1, h2⟩ := lit_move (p' := pre) h
    obtain ⟨vs, h3, h4⟩ := ih (pre ++ (t ++ (w1 ++ ',' :: w2)))
    exact ⟨v' :: vs, .cons h1 hw1 hw2 h3, by simp [h2, h4]⟩

theorem laidValues_values {ls : List (Str × Val)} (h : LaidValues E ls s) (pre : Str) : ∃ vs, Values E pre s vs ∧
    vs.map unplaced = ls.map fun l => unplaced l.2 := by
  cases h with
  | one h =>
    obtain ⟨v', h1, h2⟩ := lit_move (p' := pre) h
    exact ⟨[v'], .one h1, by simp [h2]⟩
  | list h1 hw1 h2 hw2 =>
    obtain ⟨vs, h3, h4⟩ := laidItems_items h2 (pre ++ '(' :: _)
    refine ⟨vs, .list hw1 h3 ?_ hw2, h4⟩
    have := congrArg List.length h4
    simp only [List.length_map] at this
    omega

theorem laid_text {L : Level} {c : Cst} (h : Laid E L c s) : ∀ pre, ∃ n, Text E L pre s n ∧ bare n = c.tree := by
  induction h with
  | noArgs h1 h2 h3 h4 => intro pre; exact ⟨_, .noArgs h1 h3 h4 h2 rfl, rfl⟩
  | @compare p xs o op ls w1 w2 w3 s h1 h2 h3 h4 h5 h6 =>
    intro pre
    obtain ⟨vs, h7, h8⟩ := laidValues_values h3 (pre ++ (p ++ (w1 ++ ':' :: (w2 ++ (o ++ w3)))))
    exact ⟨_, .compare h1 h4 h5 h2 h6 h7 rfl, by simp [bare, Cst.tree, h8]⟩
  | @group c s w1 w2 _ h2 h3 ih =>
    intro pre
    obtain ⟨n, h4, h5⟩ := ih (pre ++ '(' :: w1)
    exact ⟨n, .group h2 h4 h3, h5⟩
  | @word c s w _ hw ih =>
    intro pre
    obtain ⟨n, h4, h5⟩ := ih (pre ++ ("NOT".toList ++ w))
    refine ⟨.not n, ?_, by simp [bare, Cst.tree, h5]⟩
    have := Text.not (.word hw) (k := "NOT".toList ++ w) h4
    simpa using this
  | @bang c s w _ hw ih =>
    intro pre
    obtain ⟨n, h4, h5⟩ := ih (pre ++ '!' :: w)
    refine ⟨.not n, ?_, by simp [bare, Cst.tree, h5]⟩
    have := Text.not (.bang hw) (k := '!' :: w) h4
    simpa using this
  | @and l r s t w1 w2 _ _ h1 h2 ih1 ih2 =>
    intro pre
    obtain ⟨n, h4, h5⟩ := ih1 pre
    obtain ⟨m, h6, h7⟩ := ih2 (pre ++ (s ++ (w1 ++ ("AND".toList ++ w2))))
    exact ⟨_, .and h4 h1 h2 h6, by simp [bare, Cst.tree, h5, h7]⟩
  | @or l r s t w1 w2 _ _ h1 h2 ih1 ih2 =>
    intro pre
    obtain ⟨n, h4, h5⟩ := ih1 pre
    obtain ⟨m, h6, h7⟩ := ih2 (pre ++ (s ++ (w1 ++ ("OR".toList ++ w2))))
    exact ⟨_, .or h4 h1 h2 h6, by simp [bare, Cst.tree, h5, h7]⟩
  | cmpNot _ ih => intro pre; obtain ⟨n, h, h'⟩ := ih pre; exact ⟨n, .notCmp h, h'⟩
  | notAnd _ ih => intro pre; obtain ⟨n, h, h'⟩ := ih pre; exact ⟨n, .andNot h, h'⟩
  | andOr _ ih => intro pre; obtain ⟨n, h, h'⟩ := ih pre; exact ⟨n, .orAnd h, h'⟩

theorem laidOut_query {c : Cst} (h : LaidOut E c s) : ∃ n, Query E s n ∧ bare n = c.tree := by
  obtain ⟨w1, q, w2, h1, h2, h3, h4⟩ := h
  obtain ⟨n, h5, h6⟩ := laid_text h3 w1
  exact ⟨n, ⟨w1, q, w2, h1, h2, h5, h4⟩, h6⟩

theorem items_laidItems {vs : List Val} (h : Items E pre s vs) : ∃ ls, LaidItems E ls s ∧
    vs.map unplaced = ls.map fun l => unplaced l.2 := by
  induction h with
  | @one pre t v h =>
    obtain ⟨v', h1, h2⟩ := lit_move (p' := []) h
    exact ⟨[(t, v')], .one h1, by simp [h2]⟩
  | @cons pre t v w1 w2 s vs h hw1 hw2 _ ih =>
    obtain ⟨v', h1, h2⟩ := lit_move (p' := []) h
    obtain ⟨ls, h3, h4⟩ := ih
    exact ⟨(t, v') :: ls, .cons h1 hw1 hw2 h3, by simp [h2, h4]⟩

theorem values_laidValues {vs : List Val} (h : Values E pre s vs) : ∃ ls, LaidValues E ls s ∧
    vs.map unplaced = ls.map fun l => unplaced l.2 := by
  cases h with
  | one h =>
    obtain ⟨v', h1, h2⟩ := lit_move (p' := []) h
    exact ⟨[(s, v')], .one h1, by simp [h2]⟩
  | @list w1 w2 s vs hw1 h2 h1 hw2 =>
    obtain ⟨ls, h3, h4⟩ := items_laidItems h2
    refine ⟨ls, .list ?_ hw1 h3 hw2, h4⟩
    have := congrArg List.length h4
    simp only [List.length_map] at this
    omega

theorem text_laid {L : Level} {n : Node} (h : Text E L pre s n) : ∃ c, Laid E L c s ∧ bare n = c.tree := by
  induction h with
  | @group pre w1 s w2 n h1 h2 h3 ih =>
    obtain ⟨c, h4, h5⟩ := ih
    exact ⟨.group c, .group h4 h1 h3, h5⟩
  | noArgs h1 h2 h3 h4 h5 => rw [h5]; exact ⟨_, .noArgs h1 h4 h2 h3, rfl⟩
  | compare h1 h2 h3 h4 h5 h6 h7 =>
    rw [h7]
    obtain ⟨ls, h8, h9⟩ := values_laidValues h6
    exact ⟨_, .compare h1 h4 h8 h2 h3 h5, by simp [bare, Cst.tree, h9]⟩
  | notCmp _ ih => obtain ⟨c, h, h'⟩ := ih; exact ⟨c, .cmpNot h, h'⟩
  | not hk _ ih =>
    obtain ⟨c, h4, h5⟩ := ih
    cases hk with
    | @word w hw => exact ⟨.not false c, by simpa using Laid.word h4 hw, by simp [bare, Cst.tree, h5]⟩
    | @bang w hw => exact ⟨.not true c, by simpa using Laid.bang h4 hw, by simp [bare, Cst.tree, h5]⟩
  | andNot _ ih => obtain ⟨c, h, h'⟩ := ih; exact ⟨c, .notAnd h, h'⟩
  | and _ h2 h3 _ ih1 ih2 =>
    obtain ⟨c, h4, h5⟩ := ih1
    obtain ⟨d, h6, h7⟩ := ih2
    exact ⟨.and c d, .and h4 h6 h2 h3, by simp [bare, Cst.tree, h5, h7]⟩
  | orAnd _ ih => obtain ⟨c, h, h'⟩ := ih; exact ⟨c, .andOr h, h'⟩
  | or _ h2 h3 _ ih1 ih2 =>
    obtain ⟨c, h4, h5⟩ := ih1
    obtain ⟨d, h6, h7⟩ := ih2
    exact ⟨.or c d, .or h4 h6 h2 h3, by simp [bare, Cst.tree, h5, h7]⟩

theorem query_laidOut {n : Node} (h : Query E s n) : ∃ c, LaidOut E c s ∧ bare n = c.tree := by
  obtain ⟨w1, q, w2, h1, h2, h3, h4⟩ := h
  obtain ⟨c, h5, h6⟩ := text_laid h3
  exact ⟨c, ⟨w1, q, w2, h1, h2, h5, h4⟩, h6⟩

end Aql
