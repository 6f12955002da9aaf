import Verif.Proofs.Parser
/-!
The furthest failure is at least as far as any recorded failure; for a text that begins with a newline
it is behind that newline.
-/

namespace Aql

variable {E : Env}

theorem failAt_mono (s : Loc × List Str) (ev : Ev) : s.1.off ≤ (failAt s ev).1.off := by
  unfold failAt
  split
  · split
    · split
      · exact Nat.le_refl _
      · dsimp only
        split
        · rename_i h; exact Nat.le_of_lt h
        · exact Nat.le_refl _
    · exact Nat.le_refl _
  · exact Nat.le_refl _

theorem failAt_foldl_mono (log : List Ev) (s : Loc × List Str) : s.1.off ≤ (log.foldl failAt s).1.off := by
  induction log generalizing s with
  | nil => exact Nat.le_refl _
  | cons ev log ih => exact Nat.le_trans (failAt_mono s ev) (ih _)

theorem furthest_ge {log : List Ev} {b : Bool} {p : Loc} {w : Str} (h : Ev.mark b b p w ∈ log) :
    p.off ≤ (furthest log).1.off := by
  obtain ⟨l1, l2, rfl⟩ := List.append_of_mem h
  unfold furthest
  rw [List.foldl_append, List.foldl_cons]
  refine Nat.le_trans ?_ (failAt_foldl_mono _ _)
  generalize List.foldl failAt _ l1 = s
  simp only [failAt, beq_self_eq_true, if_true]
  split
  · rename_i h; exact Nat.le_of_lt h
  · dsimp only
    split
    · exact Nat.le_refl _
    · rename_i h; exact Nat.not_lt.1 h

/-! ### What runs first -/

theorem big_action_inner {ctx : Ctx} {a : Act} {e : PExpr} {fr : VFrame} {c : Cursor} {l : List Ev} {r : Res}
    (h : Big E ctx (.expr (.action a e) fr) c l r) :
    ∃ l1 r1, Big E ctx (.expr e fr) c l1 r1 ∧ ∀ ev ∈ l1, ev ∈ l := by
  cases h with
  | action_ok h _ => exact ⟨_, _, h, fun ev he => List.mem_cons_of_mem _ he⟩
  | action_err h _ => exact ⟨_, _, h, fun ev he => List.mem_cons_of_mem _ (List.mem_append_left _ he)⟩
  | action_panic h _ => exact ⟨_, _, h, fun ev he => List.mem_cons_of_mem _ he⟩
  | action_stop h _ => exact ⟨_, _, h, fun ev he => List.mem_cons_of_mem _ he⟩

theorem big_seq_inner {ctx : Ctx} {e : PExpr} {es : List PExpr} {fr : VFrame} {c : Cursor} {l : List Ev}
    {r : Res} (h : Big E ctx (.expr (.seq (e :: es)) fr) c l r) :
    ∃ l1 r1, Big E ctx (.expr e fr) c l1 r1 ∧ ∀ ev ∈ l1, ev ∈ l := by
  cases h with
  | seq h =>
    cases h with
    | seq_cons h _ => exact ⟨_, _, h, fun ev he => List.mem_cons_of_mem _ (List.mem_append_left _ he)⟩
    | seq_fail h => exact ⟨_, _, h, fun ev he => List.mem_cons_of_mem _ he⟩
    | seq_panic h => exact ⟨_, _, h, fun ev he => List.mem_cons_of_mem _ he⟩

theorem big_label_inner {ctx : Ctx} {x : PLabel} {e : PExpr} {fr : VFrame} {c : Cursor} {l : List Ev} {r : Res}
    (h : Big E ctx (.expr (.label x e) fr) c l r) :
    ∃ l1 r1, Big E ctx (.expr e []) c l1 r1 ∧ ∀ ev ∈ l1, ev ∈ l := by
  cases h with
  | label_ok h => exact ⟨_, _, h, fun ev he => List.mem_cons_of_mem _ he⟩
  | label_stop h _ => exact ⟨_, _, h, fun ev he => List.mem_cons_of_mem _ he⟩

theorem big_rule_inner {ctx : Ctx} {x : Rule} {fr : VFrame} {c : Cursor} {l : List Ev} {r : Res}
    (h : Big E ctx (.expr (.rule x) fr) c l r) :
    ∃ l1 r1, Big E ctx (.expr (grammar x) []) c l1 r1 ∧ ∀ ev ∈ l1, ev ∈ l := by
  cases h with
  | rule_ok h => exact ⟨_, _, h, fun ev he => List.mem_cons_of_mem _ he⟩
  | rule_stop h _ => exact ⟨_, _, h, fun ev he => List.mem_cons_of_mem _ he⟩

theorem step_off (a b o : Nat) (t : List Sym) : (Loc.step a b o t).off = o := by
  unfold Loc.step
  split <;> rfl

theorem next_off_eq {c : Cursor} {s : Sym} {u : List Sym} (h : c.rest = s :: u) :
    c.next.loc.off = c.loc.off + s.width := by
  unfold Cursor.next
  rw [h]
  exact step_off ..

theorem next_off {c : Cursor} {s : Sym} {u : List Sym} (h : c.rest = s :: u) :
    c.loc.off ≤ c.next.loc.off := by
  rw [next_off_eq h]; exact Nat.le_add_right _ _

/-- A loop over a class ends with a failure at or behind its start. -/
theorem big_rep_cls {ctx : Ctx} {chars : List Char} {ranges : List (Char × Char)} {ic inv one : Bool}
    {w : Str} {fr : VFrame} {acc : List PV} {j : Job} {c : Cursor} {l : List Ev} {r : Res}
    (h : Big E ctx j c l r) (hj : j = .rep fr (.cls chars ranges ic inv w) one acc) :
    ∃ p, Ev.mark false ctx.inv p w ∈ l ∧ c.loc.off ≤ p.off := by
  induction h generalizing acc with
  | rep_next h1 h2 _ ih =>
    cases hj
    obtain ⟨p, hp, ho⟩ := ih rfl
    refine ⟨p, List.mem_append_right _ hp, ?_⟩
    cases h1 with
    | cls_ok hr _ => exact Nat.le_trans (next_off hr) ho
  | rep_stop h1 =>
    cases hj
    cases h1 with
    | cls_fail _ => exact ⟨_, by simp, Nat.le_refl _⟩
  | rep_fail h1 =>
    cases hj
    cases h1 with
    | cls_fail _ => exact ⟨_, by simp, Nat.le_refl _⟩
  | rep_panic h1 => cases hj; cases h1
  | _ => cases hj

/-- The parser reads a newline at the beginning and fails, if it does, behind it. -/
theorem furthest_newline {u : List Sym} {l : List Ev} {r : Res}
    (h : Big E ⟨false, []⟩ (.expr (grammar .Start) []) (.init (.ok '\n' :: u)) l r) (log : List Ev)
    (hl : ∀ ev ∈ l, ev ∈ log) : 0 < (furthest log).1.off := by
  obtain ⟨l1, r1, h, s1⟩ := big_action_inner h
  obtain ⟨l2, r2, h, s2⟩ := big_seq_inner h
  obtain ⟨l3, r3, h, s3⟩ := big_label_inner h
  obtain ⟨l4, r4, h, s4⟩ := big_rule_inner h
  obtain ⟨l5, r5, h, s5⟩ := big_action_inner h
  obtain ⟨l6, r6, h, s6⟩ := big_seq_inner h
  obtain ⟨l7, r7, h, s7⟩ := big_rule_inner h
  have key : ∃ p, Ev.mark false false p "[ \\n\\t\\r]".toList ∈ l7 ∧ 0 < p.off := by
    cases h with
    | star h =>
      cases h with
      | rep_next h1 h2 =>
        obtain ⟨p, hp, ho⟩ := big_rep_cls h2 rfl
        refine ⟨p, List.mem_cons_of_mem _ (List.mem_append_right _ hp), ?_⟩
        cases h1 with
        | cls_ok hr _ =>
          refine Nat.lt_of_lt_of_le ?_ ho
          rw [next_off_eq hr]
          cases hr
          exact Nat.lt_of_lt_of_le (by decide) (Nat.le_add_left _ _)
      | rep_stop h1 =>
        cases h1 with
        | cls_fail hn =>
          exfalso
          have := hn (.ok '\n') u rfl
          revert this
          simp [clsMatch, Sym.rune]
      | rep_panic h1 => cases h1
  obtain ⟨p, hp, ho⟩ := key
  exact Nat.lt_of_lt_of_le ho
    (furthest_ge (hl _ (s1 _ (s2 _ (s3 _ (s4 _ (s5 _ (s6 _ (s7 _ hp)))))))))

end Aql
