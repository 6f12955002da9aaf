import Verif.Proofs.Trees
/-!
The cost of parsing nested parentheses: at least fourfold per level.
-/

namespace Aql

open Spec

/-- Evaluated expressions of a run (`ExprCnt`). -/
def ticks (l : List Ev) : Nat := l.count .tick

theorem ticks_append (l m : List Ev) : ticks (l ++ m) = ticks l + ticks m := List.count_append

theorem ticks_cons (l : List Ev) : ticks (.tick :: l) = ticks l + 1 := by simp [ticks]

variable {E : Env} {ctx : Ctx} {pre a b : Str} {v : PV}

/-- The rule matches `a` with at least `k` evaluations. -/
def Costs (E : Env) (ctx : Ctx) (x : Rule) (pre a b : Str) (v : PV) (k : Nat) : Prop :=
  ∃ l, Big E ctx (.expr (.rule x) []) (cur pre (a ++ b)) l (.ok v (cur (pre ++ a) b) []) ∧ k ≤ ticks l

theorem costs_one {x : Rule} (h : RuleOk E ctx x pre (a ++ b) v a b) : Costs E ctx x pre a b v 1 := by
  obtain ⟨g, -, l, h, -⟩ := h
  exact ⟨_, .rule_ok h, by rw [ticks_cons]; omega⟩

theorem costs_or {k : Nat} (h : Costs E ctx .AndClause pre a b v k) (hb : NoHead IsWs b) :
    Costs E ctx .OrClause pre a b v (2 * k) := by
  obtain ⟨l, h, hk⟩ := h
  obtain ⟨l2, d, hsp, -⟩ := noR (fr := [(.lhs, v)]).2 ((rule_space_no (E := E) (ctx := ctx) (pre := pre ++ a)).2 hb)
  refine ⟨_, .rule_ok (.choice (.choice_next (.action_stop (.seq (.seq_cons (.label_ok h) (.seq_fail hsp))) trivial)
    (.choice_ok h))), ?_⟩
  simp only [ticks_cons, ticks_append]
  omega

theorem costs_and {k : Nat} (h : Costs E ctx .NotClause pre a b v k) (hb : NoHead IsWs b) :
    Costs E ctx .AndClause pre a b v (2 * k) := by
  obtain ⟨l, h, hk⟩ := h
  obtain ⟨l2, d, hsp, -⟩ := noR (fr := [(.lhs, v)]).2 ((rule_space_no (E := E) (ctx := ctx) (pre := pre ++ a)).2 hb)
  refine ⟨_, .rule_ok (.choice (.choice_next (.action_stop (.seq (.seq_cons (.label_ok h) (.seq_fail hsp))) trivial)
    (.choice_ok h))), ?_⟩
  simp only [ticks_cons, ticks_append]
  omega

theorem costs_not {k : Nat} (h : Costs E ctx .Comparison pre a b v k)
    (hn : No E ctx (.action .onNotClause2 (.seq [.rule .logicalNOT, .label .cmp (.rule .Comparison)])) [] pre (a ++ b)) :
    Costs E ctx .NotClause pre a b v k := by
  obtain ⟨l, h, hk⟩ := h
  obtain ⟨l2, d, hn, -⟩ := hn
  have hd : d = cur pre (a ++ b) := hn.inv.2.1
  subst hd
  refine ⟨_, .rule_ok (.choice (.choice_next hn (.choice_ok h))), ?_⟩
  simp only [ticks_cons, ticks_append]
  omega

theorem costs_group {k : Nat} {n : Node} {c : Char} {s : Str} (ha : a = c :: s) (hc : ¬ IsWs c)
    (h : Costs E ctx .OrClause (pre ++ ['(']) a (')' :: b) (.node n) k) :
    Costs E ctx .Comparison pre ('(' :: (a ++ [')'])) b (.node n) k := by
  obtain ⟨l, h, hk⟩ := h
  have hws1 : RuleOk E ctx .ws (pre ++ ['(']) ([] ++ (a ++ ')' :: b)) (.list (charVals [])) [] (a ++ ')' :: b) := by
    refine ws_ok (fun _ h => absurd h (by simp)) ?_
    rw [ha, List.cons_append, noHead_cons]; exact hc
  have hws2 : RuleOk E ctx .ws (pre ++ ['('] ++ a) ([] ++ ')' :: b) (.list (charVals [])) [] (')' :: b) := by
    refine ws_ok (fun _ h => absurd h (by simp)) ?_
    rw [noHead_cons]; decide
  obtain ⟨-, l1, h1, -⟩ := ok_lit1 (E := E) (ctx := ctx) (fr := []) (c := '(') (pre := pre) (a := ['(']) (s := '(' :: (a ++ ')' :: b)) (w := "\"(\"".toList)
    |>.2 ⟨rfl, rfl, rfl, rfl⟩
  obtain ⟨-, l2, h2, -⟩ := okR (fr := []).2 ⟨rfl, hws1⟩
  obtain ⟨-, l3, h3, -⟩ := okR (fr := [(.query, .node n)]).2 ⟨rfl, hws2⟩
  obtain ⟨-, l4, h4, -⟩ := ok_lit1 (E := E) (ctx := ctx) (fr := [(.query, .node n)]) (c := ')') (pre := pre ++ ['('] ++ a) (a := [')']) (s := ')' :: b) (w := "\")\"".toList)
    |>.2 ⟨rfl, rfl, rfl, rfl⟩
  simp only [List.nil_append, List.append_nil] at h2 h3
  have e1 : '(' :: (a ++ [')']) ++ b = '(' :: (a ++ ')' :: b) := by simp
  have e2 : pre ++ '(' :: (a ++ [')']) = pre ++ ['('] ++ a ++ [')'] := by simp
  rw [Costs, e1, e2]
  refine ⟨_, .rule_ok (.choice (.choice_ok (.action_ok (.seq (.seq_cons h1 (.seq_cons h2 (.seq_cons (.label_ok h) (.seq_cons h3
    (.seq_cons h4 .seq_nil)))))) rfl))), ?_⟩
  simp only [ticks_cons, ticks_append]
  omega

/-- `n` pairs of parentheses around a text. -/
def nest : Nat → Str → Str
  | 0, t => t
  | n + 1, t => '(' :: (nest n t ++ [')'])

theorem nest_length (n : Nat) (t : Str) : (nest n t).length = t.length + 2 * n := by
  induction n with
  | zero => rfl
  | succ n ih => simp only [nest, List.length_cons, List.length_append, ih, List.length_nil]; omega

theorem nest_text {t : Str} (h : ∀ pre, ∃ n, Text E .cmp pre t n) : ∀ k pre, ∃ n, Text E .cmp pre (nest k t) n := by
  intro k
  induction k with
  | zero => exact h
  | succ k ih =>
    intro pre
    obtain ⟨m, hm⟩ := ih (pre ++ ['('])
    refine ⟨m, ?_⟩
    have := Text.group (pre := pre) (w1 := []) (w2 := []) (ws_nil) (.orAnd (.andNot (.notCmp hm))) ws_nil
    simpa [nest] using this

theorem nest_costs {t : Str} (h : ∀ pre, ∃ n, Text E .cmp pre t n) : ∀ k pre b, (b = [] ∨ ∃ u, b = ')' :: u) →
    ∃ n, Costs E ctx .OrClause pre (nest k t) b (.node n) (4 ^ (k + 1)) := by
  have up : ∀ {k pre b n m}, (b = [] ∨ ∃ u, b = ')' :: u) → Text E .cmp pre (nest k t) m →
      Costs E ctx .Comparison pre (nest k t) b (.node n) (4 ^ k) →
      Costs E ctx .OrClause pre (nest k t) b (.node n) (4 ^ (k + 1)) := by
    intro k pre b n m hb ht hc
    have hw : NoHead IsWs b := by
      obtain rfl | ⟨u, rfl⟩ := hb
      · simp
      · rw [noHead_cons]; decide
    have := costs_or (costs_and (costs_not hc (notClause_no ht)) hw) hw
    rwa [show 2 * (2 * 4 ^ k) = 4 ^ (k + 1) from by rw [pow_succ]; omega] at this
  intro k
  induction k with
  | zero =>
    intro pre b hb
    obtain ⟨n, hn⟩ := h pre
    refine ⟨n, up (k := 0) hb hn (costs_one (clause_complete (L := .cmp) hn ?_))⟩
    refine ⟨[], b, rfl, ws_nil, ?_⟩
    obtain rfl | ⟨u, rfl⟩ := hb
    · exact .inl rfl
    · exact .inr (.inl ⟨u, rfl⟩)
  | succ k ih =>
    intro pre b hb
    obtain ⟨n, hn⟩ := ih (pre ++ ['(']) (')' :: b) (.inr ⟨b, rfl⟩)
    obtain ⟨m, hm⟩ := nest_text h k (pre ++ ['('])
    obtain ⟨c, u, he, hc⟩ := text_head hm
    have hg := costs_group (pre := pre) he (by have := text_notWs (b := []) hm; rw [he, List.cons_append, noHead_cons] at this; exact this) hn
    obtain ⟨m', hm'⟩ := nest_text h (k + 1) pre
    exact ⟨n, up (k := k + 1) hb hm' hg⟩

/-- The whole parse of the nested text. -/
theorem nest_parse {t : Str} (h : ∀ pre, ∃ n, Text E .cmp pre t n) (k : Nat) {log : List Ev} {r : Res}
    (hr : runStart E ((nest k t).map .ok) = .done log r) : 4 ^ (k + 1) ≤ ticks log := by
  obtain ⟨n, l, hn, hk⟩ := nest_costs (ctx := ⟨false, []⟩) h k [] [] (.inl rfl)
  obtain ⟨m, hm⟩ := nest_text h k []
  have hws1 : RuleOk E ⟨false, []⟩ .ws [] ([] ++ nest k t) (.list (charVals [])) [] (nest k t) :=
    ws_ok ws_nil (by simpa using text_notWs (b := []) hm)
  have hws2 : RuleOk E ⟨false, []⟩ .ws (nest k t) ([] ++ []) (.list (charVals [])) [] [] := ws_ok ws_nil (by simp)
  obtain ⟨-, l1, h1, -⟩ := okR (fr := []).2 ⟨rfl, hws1⟩
  obtain ⟨-, l2, h2, -⟩ := okR (fr := [(.clause, .node n)]).2 ⟨rfl, hws2⟩
  simp only [List.nil_append, List.append_nil] at h1 h2 hn
  have heof : Big E ⟨false, []⟩ (.expr (.rule .EOF) [(.query, .node n)]) (cur (nest k t) []) _ (.ok .nil (cur (nest k t) []) _) :=
    .rule_ok (.not_ok (.any_eof rfl))
  have hall : Big E ⟨false, []⟩ (.expr (grammar .Start) []) (cur [] (nest k t)) _ _ :=
    .action_ok (.seq (.seq_cons (.label_ok (.rule_ok (.action_ok (.seq (.seq_cons h1 (.seq_cons (.label_ok hn) (.seq_cons h2 .seq_nil))))
      rfl))) (.seq_cons heof .seq_nil))) rfl
  obtain ⟨l', r', hb, hr', -⟩ := parse_big (E := E) ((nest k t).map .ok)
  rw [hr] at hr'
  simp only [Out.done.injEq] at hr'
  rw [cur_init] at hb
  rw [hr'.1, (hb.det hall).1]
  simp only [ticks_cons, ticks_append]
  omega

end Aql
