import Verif.Proofs.Stack
import Verif.Proofs.Language
import Verif.Spec.Stack
/-!
The depth of the recursion over an accepted query: at least five activations for every level of its tree.
-/

namespace Aql
open Spec

variable {E : Env} {ctx : Ctx} {pre a b : Str}

/-- An element of a sequence, after the text that those before it match. -/
theorem leads_seq_cur {es es' : List PExpr} {e : PExpr} {fr fr' : VFrame} {s : Str} {v : PV}
    (h : OkS E ctx es [] fr pre s v a b fr') :
    Leads E ctx (.seq (es ++ e :: es')) fr (cur pre s) 1 e fr' (cur (pre ++ a) b) := by
  obtain ⟨-, l, hb, -⟩ := (okJ_seq (st := cur pre s)).2 h
  exact leads_seq_at es ⟨l, v, hb⟩

theorem leads_or_lhs {fr : VFrame} {c : Cursor} : Leads E ctx (.rule .OrClause) fr c 5 (.rule .AndClause) [] c :=
  leads_rule.trans <| leads_choice.trans <| leads_action.trans <| leads_seq.trans leads_label

theorem leads_and_lhs {fr : VFrame} {c : Cursor} : Leads E ctx (.rule .AndClause) fr c 5 (.rule .NotClause) [] c :=
  leads_rule.trans <| leads_choice.trans <| leads_action.trans <| leads_seq.trans leads_label

/-- The count of a clause is at least five times the height of its tree. -/
theorem height_le {L : Level} {n : Node} (h : Text E L pre a n) : ∀ {b}, Follow L b → ∀ fr f r d,
    dRun E f ctx (.rule (ruleOf L)) fr (cur pre (a ++ b)) = some (r, d) → 5 * treeHeight n ≤ d := by
  induction h with
  | @group pre w1 s w2 n h1 h2 h3 ih =>
    intro b hb fr f r d hd
    have e : '(' :: (w1 ++ (s ++ (w2 ++ [')']))) ++ b = '(' :: (w1 ++ (s ++ (w2 ++ ')' :: b))) := by simp
    rw [e] at hd
    have hs := leads_seq_cur (E := E) (ctx := ctx) (pre := pre) (a := '(' :: w1) (b := s ++ (w2 ++ ')' :: b))
      (es := [.lit ['('] false "\"(\"".toList, .rule .ws]) (e := .label .query (.rule .OrClause))
      (es' := [.rule .ws, .lit [')'] false "\")\"".toList]) (fr := []) (fr' := [])
      (s := '(' :: (w1 ++ (s ++ (w2 ++ ')' :: b)))) (v := .list [.bytes ['('], .list (charVals w1)])
      (by
        simp only [OkS, ok_lit1, okR]
        exact ⟨_, ['('], w1 ++ (s ++ (w2 ++ ')' :: b)), _, ⟨rfl, rfl, rfl, rfl⟩, w1, rfl, _, w1, _, _,
          ⟨rfl, ws_ok h1 (text_notWs h2)⟩, [], by simp, rfl, rfl, rfl, rfl⟩)
    have hl : Leads E ctx (.rule .Comparison) fr (cur pre ('(' :: (w1 ++ (s ++ (w2 ++ ')' :: b))))) 5
        (.rule .OrClause) [] (cur (pre ++ '(' :: w1) (s ++ (w2 ++ ')' :: b))) :=
      leads_rule.trans <| leads_choice.trans <| leads_action.trans <| hs.trans leads_label
    obtain ⟨f', r', d', hd', hle⟩ := hl f r d hd
    have := ih (b := w2 ++ ')' :: b) ⟨w2, ')' :: b, rfl, h3, .inr (.inl ⟨b, rfl⟩)⟩ _ _ _ _ hd'
    omega
  | noArgs hp h1 h2 ho ht => intro b hb fr f r d hd; exact Nat.zero_le _
  | compare hp h1 h2 ho h3 hv ht => intro b hb fr f r d hd; exact Nat.zero_le _
  | @notCmp pre s n h ih =>
    intro b hb fr f r d hd
    obtain ⟨l, x, hn, -⟩ := notClause_no (E := E) (ctx := ctx) (fr := []) (b := b) h
    have hl : Leads E ctx (.rule .NotClause) fr (cur pre (s ++ b)) 2 (.rule .Comparison) [] (cur pre (s ++ b)) :=
      leads_rule.trans <| leads_choice_next fun l' r' h' => ⟨x, (Big.det h' hn).2⟩
    obtain ⟨f', r', d', hd', hle⟩ := hl f r d hd
    have := ih hb _ _ _ _ hd'
    omega
  | @not pre k s n hk h ih =>
    intro b hb fr f r d hd
    rw [List.append_assoc] at hd
    obtain ⟨v, hv⟩ := logicalNOT_ok (E := E) (ctx := ctx) (pre := pre) (b := s ++ b) hk (text_notWs h)
    have hs := leads_seq_cur (E := E) (ctx := ctx) (pre := pre) (a := k) (b := s ++ b)
      (es := [.rule .logicalNOT]) (e := .label .cmp (.rule .Comparison)) (es' := []) (fr := []) (fr' := [])
      (s := k ++ (s ++ b)) (v := .list [v])
      (by
        simp only [OkS, okR]
        exact ⟨v, k, s ++ b, _, ⟨rfl, hv⟩, [], by simp, rfl, rfl, rfl, rfl⟩)
    have hl : Leads E ctx (.rule .NotClause) fr (cur pre (k ++ (s ++ b))) 5 (.rule .Comparison) []
        (cur (pre ++ k) (s ++ b)) :=
      leads_rule.trans <| leads_choice.trans <| leads_action.trans <| hs.trans leads_label
    obtain ⟨f', r', d', hd', hle⟩ := hl f r d hd
    have := ih hb _ _ _ _ hd'
    simp only [treeHeight]
    omega
  | @andNot pre s n h ih =>
    intro b hb fr f r d hd
    obtain ⟨f', r', d', hd', hle⟩ := leads_and_lhs f r d hd
    have := ih (b := b) (hb.mono fun t ht => .inr ht) _ _ _ _ hd'
    omega
  | @and pre a l w1 w2 b' r h1 h2 h3 h4 ih1 ih2 =>
    intro b hb fr f x d hd
    have hf : Follow .not (w1 ++ ("AND".toList ++ (w2 ++ (b' ++ b)))) :=
      ⟨w1, _, rfl, h2.1, .inr (.inr ⟨h2.2, .inl ⟨_, rfl⟩⟩)⟩
    have e : a ++ (w1 ++ ("AND".toList ++ (w2 ++ b'))) ++ b = a ++ (w1 ++ ("AND".toList ++ (w2 ++ (b' ++ b)))) := by
      simp only [List.append_assoc]
    rw [e] at hd
    have hs := leads_seq_cur (E := E) (ctx := ctx) (pre := pre) (a := a ++ (w1 ++ ("AND".toList ++ w2))) (b := b' ++ b)
      (es := [.label .lhs (.rule .NotClause), .rule .space, .rule .logicalAND, .rule .space])
      (e := .label .rhs (.rule .AndClause)) (es' := []) (fr := []) (fr' := [(.lhs, .node l)])
      (s := a ++ (w1 ++ ("AND".toList ++ (w2 ++ (b' ++ b)))))
      (v := .list [.node l, .list (charVals w1), .bytes "AND".toList, .list (charVals w2)])
      (by
        simp only [OkS, ok_label, okR]
        exact ⟨_, a, w1 ++ ("AND".toList ++ (w2 ++ (b' ++ b))), _, ⟨rfl, [], rfl, clause_complete (L := .not) h1 hf⟩, _, rfl,
          _, w1, "AND".toList ++ (w2 ++ (b' ++ b)), _,
          ⟨rfl, rule_space.2 ⟨rfl, rfl, h2, noHead_cons.2 (by decide)⟩⟩, _, rfl, _, _, w2 ++ (b' ++ b), _,
          ⟨rfl, logicalAND_iff.2 ⟨rfl, rfl, rfl⟩⟩, w2, rfl, _, w2, b' ++ b, _,
          ⟨rfl, rule_space.2 ⟨rfl, rfl, h3, text_notWs h4⟩⟩, [], by simp, rfl, rfl, rfl, rfl⟩)
    have hl : Leads E ctx (.rule .AndClause) fr (cur pre (a ++ (w1 ++ ("AND".toList ++ (w2 ++ (b' ++ b)))))) 5
        (.rule .AndClause) [] (cur (pre ++ (a ++ (w1 ++ ("AND".toList ++ w2)))) (b' ++ b)) :=
      leads_rule.trans <| leads_choice.trans <| leads_action.trans <| hs.trans leads_label
    obtain ⟨f1, r1, d1, hd1, hle1⟩ := leads_and_lhs f x d hd
    obtain ⟨f2, r2, d2, hd2, hle2⟩ := hl f x d hd
    have k1 := ih1 hf _ _ _ _ hd1
    have k2 := ih2 hb _ _ _ _ hd2
    simp only [treeHeight]
    omega
  | @orAnd pre s n h ih =>
    intro b hb fr f r d hd
    obtain ⟨f', r', d', hd', hle⟩ := leads_or_lhs f r d hd
    have := ih (b := b) (hb.mono fun t ht => ht.elim) _ _ _ _ hd'
    omega
  | @or pre a l w1 w2 b' r h1 h2 h3 h4 ih1 ih2 =>
    intro b hb fr f x d hd
    have hf : Follow .and (w1 ++ ("OR".toList ++ (w2 ++ (b' ++ b)))) :=
      ⟨w1, _, rfl, h2.1, .inr (.inr ⟨h2.2, _, rfl⟩)⟩
    have e : a ++ (w1 ++ ("OR".toList ++ (w2 ++ b'))) ++ b = a ++ (w1 ++ ("OR".toList ++ (w2 ++ (b' ++ b)))) := by
      simp only [List.append_assoc]
    rw [e] at hd
    have hs := leads_seq_cur (E := E) (ctx := ctx) (pre := pre) (a := a ++ (w1 ++ ("OR".toList ++ w2))) (b := b' ++ b)
      (es := [.label .lhs (.rule .AndClause), .rule .space, .rule .logicalOR, .rule .space])
      (e := .label .rhs (.rule .OrClause)) (es' := []) (fr := []) (fr' := [(.lhs, .node l)])
      (s := a ++ (w1 ++ ("OR".toList ++ (w2 ++ (b' ++ b)))))
      (v := .list [.node l, .list (charVals w1), .bytes "OR".toList, .list (charVals w2)])
      (by
        simp only [OkS, ok_label, okR]
        exact ⟨_, a, w1 ++ ("OR".toList ++ (w2 ++ (b' ++ b))), _, ⟨rfl, [], rfl, clause_complete (L := .and) h1 hf⟩, _, rfl,
          _, w1, "OR".toList ++ (w2 ++ (b' ++ b)), _,
          ⟨rfl, rule_space.2 ⟨rfl, rfl, h2, noHead_cons.2 (by decide)⟩⟩, _, rfl, _, _, w2 ++ (b' ++ b), _,
          ⟨rfl, logicalOR_iff.2 ⟨rfl, rfl, rfl⟩⟩, w2, rfl, _, w2, b' ++ b, _,
          ⟨rfl, rule_space.2 ⟨rfl, rfl, h3, text_notWs h4⟩⟩, [], by simp, rfl, rfl, rfl, rfl⟩)
    have hl : Leads E ctx (.rule .OrClause) fr (cur pre (a ++ (w1 ++ ("OR".toList ++ (w2 ++ (b' ++ b)))))) 5
        (.rule .OrClause) [] (cur (pre ++ (a ++ (w1 ++ ("OR".toList ++ w2)))) (b' ++ b)) :=
      leads_rule.trans <| leads_choice.trans <| leads_action.trans <| hs.trans leads_label
    obtain ⟨f1, r1, d1, hd1, hle1⟩ := leads_or_lhs f x d hd
    obtain ⟨f2, r2, d2, hd2, hle2⟩ := hl f x d hd
    have k1 := ih1 hf _ _ _ _ hd1
    have k2 := ih2 hb _ _ _ _ hd2
    simp only [treeHeight]
    omega

/-- The same of a whole query, from the start rule: seven more activations. -/
theorem stackDepth_height {s : Str} {n : Node} (h : Query E s n) {d : Nat}
    (hd : stackDepth E (s.map .ok) = some d) : 5 * treeHeight n + 7 ≤ d := by
  obtain ⟨w1, q, w2, h1, h2, h3, rfl⟩ := h
  rw [stackDepth, cur_init] at hd
  rcases hr : dRun E (depthBound ((w1 ++ (q ++ w2)).map Sym.ok).length) ⟨false, []⟩ (grammar .Start) []
      (cur [] (w1 ++ (q ++ w2))) with _ | ⟨r, d'⟩
  · rw [hr] at hd; cases hd
  · rw [hr] at hd
    cases hd
    have hs := leads_seq_cur (E := E) (ctx := ⟨false, []⟩) (pre := []) (a := w1) (b := q ++ w2)
      (es := [.rule .ws]) (e := .label .clause (.rule .OrClause)) (es' := [.rule .ws]) (fr := []) (fr' := [])
      (s := w1 ++ (q ++ w2)) (v := .list [.list (charVals w1)])
      (by
        simp only [OkS, okR]
        exact ⟨_, w1, q ++ w2, _, ⟨rfl, ws_ok h1 (text_notWs h3)⟩, [], by simp, rfl, rfl, rfl, rfl⟩)
    have hl : Leads E ⟨false, []⟩ (grammar .Start) [] (cur [] (w1 ++ (q ++ w2))) 7 (.rule .OrClause) []
        (cur ([] ++ w1) (q ++ w2)) :=
      leads_action.trans <| leads_seq.trans <| leads_label.trans <| leads_rule.trans <| leads_action.trans <|
      hs.trans leads_label
    obtain ⟨f', r', d'', hd', hle⟩ := hl _ _ _ hr
    have := height_le (L := .or) h3 (b := w2) ⟨w2, [], by simp, h2, .inl rfl⟩ _ _ _ _ hd'
    show _ ≤ d'
    omega

/-- From a clause down to the clause in its negated parentheses. -/
theorem leads_not_group {fr : VFrame} {s b : Str} (hs : NoHead IsWs (s ++ b)) :
    Leads E ctx (.rule .OrClause) fr (cur pre ('!' :: '(' :: (s ++ b))) 20 (.rule .OrClause) []
      (cur (pre ++ ['!', '(']) (s ++ b)) := by
  obtain ⟨v, hv⟩ := logicalNOT_ok (E := E) (ctx := ctx) (pre := pre) (b := '(' :: (s ++ b)) (k := ['!'])
    (.bang (w := []) ws_nil) (noHead_cons.2 (by decide))
  have h1 := leads_seq_cur (E := E) (ctx := ctx) (pre := pre) (a := ['!']) (b := '(' :: (s ++ b))
    (es := [.rule .logicalNOT]) (e := .label .cmp (.rule .Comparison)) (es' := []) (fr := []) (fr' := [])
    (s := '!' :: '(' :: (s ++ b)) (v := .list [v])
    (by
      simp only [OkS, okR]
      exact ⟨v, ['!'], _, _, ⟨rfl, hv⟩, [], by simp, rfl, rfl, rfl, rfl⟩)
  have h2 := leads_seq_cur (E := E) (ctx := ctx) (pre := pre ++ ['!']) (a := ['(']) (b := s ++ b)
    (es := [.lit ['('] false "\"(\"".toList, .rule .ws]) (e := .label .query (.rule .OrClause))
    (es' := [.rule .ws, .lit [')'] false "\")\"".toList]) (fr := []) (fr' := [])
    (s := '(' :: (s ++ b)) (v := .list [.bytes ['('], .list (charVals [])])
    (by
      simp only [OkS, ok_lit1, okR]
      exact ⟨_, ['('], s ++ b, _, ⟨rfl, rfl, rfl, rfl⟩, [], rfl, _, [], _, _,
        ⟨rfl, ws_ok ws_nil hs⟩, [], by simp, rfl, rfl, rfl, rfl⟩)
  have hn : Leads E ctx (.rule .NotClause) [] (cur pre ('!' :: '(' :: (s ++ b))) 5 (.rule .Comparison) []
      (cur (pre ++ ['!']) ('(' :: (s ++ b))) :=
    leads_rule.trans <| leads_choice.trans <| leads_action.trans <| h1.trans leads_label
  have hc : Leads E ctx (.rule .Comparison) [] (cur (pre ++ ['!']) ('(' :: (s ++ b))) 5 (.rule .OrClause) []
      (cur (pre ++ ['!', '(']) (s ++ b)) := by
    have e : pre ++ ['!', '('] = pre ++ ['!'] ++ ['('] := by simp
    rw [e]
    exact leads_rule.trans <| leads_choice.trans <| leads_action.trans <| h2.trans leads_label
  exact leads_or_lhs.trans <| leads_and_lhs.trans <| hn.trans hc

end Aql
