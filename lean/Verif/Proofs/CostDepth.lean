import Verif.Proofs.CostBound
import Verif.Spec.Depth
/-!
The cost of parsing an accepted query: at most cubic in its length, times four to the depth of the
parentheses.
-/

namespace Aql

open Spec

variable {E : Env} {pre a b s : Str} {v : PV}

theorem ok_run0 {x : Rule} (h : RuleOk E ⟨false, []⟩ x pre s v a b) :
    ∃ k, Run0 E (grammar x) (cur pre s) k (some (cur (pre ++ a) b)) := by
  obtain ⟨g, -, l, h, -⟩ := h
  exact ⟨_, l, _, h, rfl, rfl⟩

theorem ok_run {x : Rule} (h : RuleOk E ⟨false, []⟩ x pre s v a b) :
    ∃ k, Run E (.rule x) (cur pre s) k (some (cur (pre ++ a) b)) := by
  obtain ⟨g, -, l, h, -⟩ := h
  exact ⟨_, [], _, _, .rule_ok h, rfl, rfl⟩

theorem cur_length (pre s : Str) : (cur pre s).rest.length = s.length := by simp [cur]

theorem Spec.TextIn.text {d : Nat} {L : Level} {n : Node} (h : TextIn E d L pre a n) : Text E L pre a n := by
  induction h with
  | group h1 _ h3 ih => exact .group h1 ih h3
  | noArgs h1 h2 h3 h4 h5 => exact .noArgs h1 h2 h3 h4 h5
  | compare h1 h2 h3 h4 h5 h6 h7 => exact .compare h1 h2 h3 h4 h5 h6 h7
  | notCmp _ ih => exact .notCmp ih
  | not h _ ih => exact .not h ih
  | andNot _ ih => exact .andNot ih
  | and _ h2 h3 _ ih1 ih2 => exact .and ih1 h2 h3 ih2
  | orAnd _ ih => exact .orAnd ih
  | or _ h2 h3 _ ih1 ih2 => exact .or ih1 h2 h3 ih2

variable {c : Cursor} {k : Nat} {o : Option Cursor}

/-- A negation sign excludes a parenthesis. -/
theorem not_opens {c1 : Cursor} (h : Run E (.rule .logicalNOT) c k (some c1)) : ¬ Opens c := by
  obtain ⟨u, hu, hne, hs⟩ := run_logicalNOT h
  rintro ⟨s, t, hr, hp⟩
  rw [hu.rest] at hr
  rcases u with _ | ⟨x, u⟩
  · exact hne rfl
  · cases hr
    exact absurd (List.mem_cons_of_mem _ (List.mem_cons_of_mem _ (List.mem_cons_of_mem _ (by rw [hp]; simp))))
      (hs s (by simp))

/-- Where a parenthesis follows the negation sign no comparison begins with the sign. -/
theorem not_stuck {c1 : Cursor} (h : Run E (.rule .logicalNOT) c k (some c1)) (hop : Opens c1) : Stuck c := by
  obtain ⟨u, hu, -, hs⟩ := run_logicalNOT h
  obtain ⟨x, w, hr, hx⟩ := hop
  exact ⟨u, x, w, by rw [hu.rest, hr], hx, hs⟩

/-- A negation that succeeds is a comparison, after the sign or not, and little else. -/
theorem not_inv {q : Nat} {c' : Cursor} (h : Run0 E (grammar .NotClause) c k (some c')) (hq : c.rest.length + 1 ≤ q) :
    ∃ c0 k', Run0 E (grammar .Comparison) c0 k' (some c') ∧ k ≤ k' + 10 * pass q ∧
      (c0 = c ∨ ∃ m, Run E (.rule .logicalNOT) c m (some c0)) := by
  have hP := pass_pos hq
  obtain ⟨k0, rfl, h'⟩ := run_choice h
  clear h; rename' h' => h
  obtain ⟨k1, o1, h1', h'⟩ := runAlt_cons h
  clear h; rename' h1' => h1, h' => h
  obtain ⟨k2, o2, rfl, h1', ho⟩ := run_action h1
  clear h1; rename' h1' => h1
  obtain ⟨k3, rfl, h1'⟩ := run_seq h1
  clear h1; rename' h1' => h1
  obtain ⟨k4, o4, h4', h1'⟩ := runSeq_cons h1
  clear h1; rename' h4' => h4, h1' => h1
  have b4 : k4 ≤ pass q := run_flat h4 (by decide) hq
  have last : ∀ {k : Nat} {o : Option Cursor}, RunAlt E [.rule .Comparison] c k o →
      ∃ k', k = k' + 1 ∧ Run0 E (grammar .Comparison) c k' o := by
    intro k o h
    obtain ⟨k1, o1, h1', h'⟩ := runAlt_cons h
    clear h; rename' h1' => h1, h' => h
    obtain ⟨k', rfl, h1'⟩ := run_rule h1.run
    clear h1; rename' h1' => h1
    rcases h with ⟨rfl, rfl⟩ | ⟨rfl, k2, h, rfl⟩
    · exact ⟨_, rfl, h1⟩
    · obtain ⟨rfl, rfl⟩ := runAlt_nil h
      exact ⟨_, rfl, h1⟩
  rcases h1 with ⟨rfl, rfl, rfl⟩ | ⟨c1, k5, rfl, h1, rfl⟩
  · -- no negation sign
    have ho1 : o1 = none := by rcases ho with ho | ho <;> exact ho
    subst ho1
    rcases h with ⟨h, -⟩ | ⟨-, k2, h, rfl⟩
    · cases h
    · obtain ⟨k6, rfl, h'⟩ := last h
      exact ⟨c, k6, h', by omega, .inl rfl⟩
  · have hlt : c1.rest.length < c.rest.length := run_reads h4 rfl
    obtain ⟨k6, o6, h6', h1'⟩ := runSeq_cons h1
    clear h1; rename' h6' => h6, h1' => h1
    obtain ⟨k7, rfl, h6'⟩ := run_label h6
    clear h6; rename' h6' => h6
    obtain ⟨k8, rfl, h6'⟩ := run_rule h6.run
    clear h6; rename' h6' => h6
    have hk : k5 = k8 + 1 + 1 ∧ o2 = o6 := by
      rcases h1 with ⟨rfl, rfl, rfl⟩ | ⟨c2, k9, rfl, h1, rfl⟩
      · exact ⟨rfl, rfl⟩
      · obtain ⟨rfl, rfl⟩ := runSeq_nil h1
        exact ⟨rfl, rfl⟩
    obtain ⟨rfl, rfl⟩ := hk
    rcases h with ⟨rfl, rfl⟩ | ⟨rfl, k9, h, rfl⟩
    · rcases ho with rfl | ho
      · exact ⟨c1, k8, h6, by omega, .inr ⟨_, h4⟩⟩
      · cases ho
    · obtain ⟨k10, rfl, h'⟩ := last h
      clear h; rename' h' => h
      rcases cmp_cost h6 (q := q) (by omega) with hc | ⟨hop, -⟩
      · exact ⟨c, k10, h, by omega, .inl rfl⟩
      · exact (not_opens h4 (cmp_stuck h (not_stuck h4 hop))).elim

/-- No conjunction sign follows where a clause of a conjunction may end. -/
theorem follow_no_and (h : Follow .and b) : ¬ AndFollows E (cur pre b) := by
  rintro ⟨n2, n3, c2, c3, h2, h3⟩
  obtain ⟨w, t, rfl, hw, ht⟩ := h
  obtain ⟨t', ht', hs'⟩ := run_space h2
  obtain ⟨k', -, h3⟩ := run_rule h3
  obtain ⟨y, u', hy, he'⟩ := lit_head h3.run
  have ny : y.rune ∉ [' ', '\n', '\t', '\r'] := by rw [he']; decide
  have hr := ht'.rest
  rw [hy] at hr
  change (w ++ t).map Sym.ok = _ at hr
  rw [List.map_append] at hr
  have hin : ∀ z ∈ w.map Sym.ok, z.rune ∈ [' ', '\n', '\t', '\r'] := by
    intro z hz
    obtain ⟨x, hx, rfl⟩ := List.mem_map.1 hz
    have := hw x hx
    unfold IsWs at this
    rcases this with rfl | rfl | rfl | rfl <;> simp [Sym.rune]
  have hnext : ∀ z r, t.map Sym.ok = z :: r → z.rune = y.rune ∨ z.rune ∈ [' ', '\n', '\t', '\r'] := by
    intro z r hz
    rw [hz] at hr
    rcases List.append_eq_append_iff.1 hr with ⟨x, hx, he⟩ | ⟨x, hx, he⟩ <;> rcases x with _ | ⟨x0, x⟩
    · cases he; exact .inl rfl
    · cases he
      exact .inr (hs' z (by rw [hx]; simp))
    · cases he; exact .inl rfl
    · cases he
      exact absurd (hin y (by rw [hx]; simp)) ny
  rcases ht with rfl | ⟨u, rfl⟩ | ⟨-, ⟨u, rfl⟩⟩
  · have : y ∈ w.map Sym.ok := by
      rw [List.map_nil, List.append_nil] at hr
      rw [hr]; simp
    exact ny (hin y this)
  · rcases hnext _ _ rfl with h | h
    · rw [he'] at h; exact absurd h (by decide)
    · exact absurd h (by decide)
  · rcases hnext _ _ rfl with h | h
    · rw [he'] at h; exact absurd h (by decide)
    · exact absurd h (by decide)

/-- No disjunction sign follows where a clause may end. -/
theorem follow_no_or (h : Follow .or b) : ¬ OrFollows E (cur pre b) := by
  rintro ⟨n2, n3, c2, c3, h2, h3⟩
  obtain ⟨w, t, rfl, hw, ht⟩ := h
  obtain ⟨t', ht', hs'⟩ := run_space h2
  obtain ⟨k', -, h3⟩ := run_rule h3
  obtain ⟨y, u', hy, he'⟩ := lit_head h3.run
  have ny : y.rune ∉ [' ', '\n', '\t', '\r'] := by rw [he']; decide
  have hr := ht'.rest
  rw [hy] at hr
  change (w ++ t).map Sym.ok = _ at hr
  rw [List.map_append] at hr
  have hin : ∀ z ∈ w.map Sym.ok, z.rune ∈ [' ', '\n', '\t', '\r'] := by
    intro z hz
    obtain ⟨x, hx, rfl⟩ := List.mem_map.1 hz
    have := hw x hx
    unfold IsWs at this
    rcases this with rfl | rfl | rfl | rfl <;> simp [Sym.rune]
  have hnext : ∀ z r, t.map Sym.ok = z :: r → z.rune = y.rune ∨ z.rune ∈ [' ', '\n', '\t', '\r'] := by
    intro z r hz
    rw [hz] at hr
    rcases List.append_eq_append_iff.1 hr with ⟨x, hx, he⟩ | ⟨x, hx, he⟩ <;> rcases x with _ | ⟨x0, x⟩
    · cases he; exact .inl rfl
    · cases he
      exact .inr (hs' z (by rw [hx]; simp))
    · cases he; exact .inl rfl
    · cases he
      exact absurd (hin y (by rw [hx]; simp)) ny
  rcases ht with rfl | ⟨u, rfl⟩ | ⟨-, h⟩
  · have : y ∈ w.map Sym.ok := by
      rw [List.map_nil, List.append_nil] at hr
      rw [hr]; simp
    exact ny (hin y this)
  · rcases hnext _ _ rfl with h | h
    · rw [he'] at h; exact absurd h (by decide)
    · exact absurd h (by decide)
  · exact h

/-- The bound for a text of a level: `u` for each pass of the rules that are not recursive, `p` for each
character between parentheses. -/
def levelCost (u p len : Nat) : Level → Nat
  | .cmp => 5 * u + len * p
  | .not => 20 * u + len * p
  | .and => len * (44 * u + 2 * p)
  | .or => len * (92 * u + 4 * p)

theorem text_cost {q d : Nat} {L : Level} {n : Node} (h : TextIn E d L pre a n) :
    ∀ {b : Str}, Follow L b → (a ++ b).length + 1 ≤ q → ∀ {k : Nat} {o : Option Cursor},
      Run0 E (grammar (ruleOf L)) (cur pre (a ++ b)) k o →
      k ≤ levelCost (pass q) (sg (92 * pass q) d) a.length L := by
  induction h with
  | @group d pre w1 s w2 n h1 h2 h3 ih =>
    intro b hb hq k o h
    rcases cmp_cost h (q := q) (by rw [cur_length]; exact hq) with hc | ⟨-, c2, k2, o2, ⟨c1, m1, m2, w, r1, r2⟩, hr, -, -, hk, -⟩
    · exact hc.trans (Nat.le_add_right _ _)
    · obtain ⟨t, ht, hm⟩ := run_lit r1
      obtain ⟨x, y, e, rfl⟩ := adv_cur ht
      have hx : x = ['('] := by
        have hr := ht.rest
        change List.map Sym.ok _ = t ++ List.map Sym.ok y at hr
        rw [e, List.map_append] at hr
        rw [← List.append_cancel_right hr] at hm
        rwa [List.map_map, show Sym.rune ∘ Sym.ok = id from rfl, List.map_id] at hm
      subst hx
      have hy : y = w1 ++ (s ++ (w2 ++ ')' :: b)) := by
        simp only [List.cons_append, List.nil_append, List.cons.injEq, true_and, List.append_assoc] at e
        exact e.symm
      subst hy
      obtain ⟨m3, r3⟩ := ok_run (ws_ok (E := E) (ctx := ⟨false, []⟩) (pre := pre ++ ['(']) h1 (text_notWs (b := w2 ++ ')' :: b) h2.text))
      obtain ⟨-, he⟩ := run_rule_det r2 r3
      cases he
      have hf : Follow .or (w2 ++ ')' :: b) := ⟨w2, ')' :: b, rfl, h3, .inr (.inl ⟨b, rfl⟩)⟩
      have e1 : pre ++ ['('] ++ w1 = pre ++ '(' :: w1 := by simp
      rw [e1] at hr
      have hlen : (s ++ (w2 ++ ')' :: b)).length + 1 ≤ q := by
        simp only [List.length_append, List.length_cons, List.length_nil] at hq ⊢
        omega
      have := ih hf hlen hr
      have hl : s.length ≤ ('(' :: (w1 ++ (s ++ (w2 ++ [')'])))).length := by simp; omega
      have := Nat.mul_le_mul_right (92 * pass q + 4 * sg (92 * pass q) d) hl
      dsimp only [levelCost, sg] at *
      omega
  | @noArgs d pre p xs w1 w2 o' op t hp h1 h2 ho ht =>
    intro b hb hq k o h
    rcases cmp_cost h (q := q) (by rw [cur_length]; exact hq) with hc | ⟨⟨x, u, hx, he⟩, -⟩
    · exact hc.trans (Nat.le_add_right _ _)
    · obtain ⟨y, r, rfl, hy⟩ := path_head hp
      rw [ht] at hx
      cases hx
      exact (head_not hy (by decide) (by decide) he).elim
  | @compare d pre p xs w1 w2 o' op w3 s vs t hp h1 h2 ho h3 hv ht =>
    intro b hb hq k o h
    rcases cmp_cost h (q := q) (by rw [cur_length]; exact hq) with hc | ⟨⟨x, u, hx, he⟩, -⟩
    · exact hc.trans (Nat.le_add_right _ _)
    · obtain ⟨y, r, rfl, hy⟩ := path_head hp
      rw [ht] at hx
      cases hx
      exact (head_not hy (by decide) (by decide) he).elim
  | @notCmp d pre s n h0 ih =>
    intro b hb hq k o h
    obtain ⟨m, hm⟩ := ok_run0 (clause_complete (ctx := ⟨false, []⟩) (Text.notCmp h0.text) hb)
    obtain ⟨rfl, rfl⟩ := run0_det h hm
    obtain ⟨m', hm'⟩ := ok_run0 (clause_complete (ctx := ⟨false, []⟩) h0.text hb)
    obtain ⟨c0, k', h', hk, rfl | ⟨m0, hn⟩⟩ := not_inv h (q := q) (by rw [cur_length]; exact hq)
    · have := ih hb hq h'
      dsimp only [levelCost] at *
      omega
    · have hl := run_le hn
      rw [cur_length] at hl
      rcases cmp_cost h' (q := q) (by omega) with hc | ⟨hop, -⟩
      · dsimp only [levelCost] at *
        omega
      · exact (not_opens hn (cmp_stuck hm' (not_stuck hn hop))).elim
  | @not d pre w s n hw h0 ih =>
    intro b hb hq k o h
    obtain ⟨m, hm⟩ := ok_run0 (clause_complete (ctx := ⟨false, []⟩) (Text.not hw h0.text) hb)
    obtain ⟨rfl, rfl⟩ := run0_det h hm
    obtain ⟨v, hv⟩ := logicalNOT_ok (E := E) (ctx := ⟨false, []⟩) (pre := pre) (b := s ++ b) hw (text_notWs h0.text)
    obtain ⟨m1, hv⟩ := ok_run hv
    obtain ⟨c0, k', h', hk, hc0⟩ := not_inv h (q := q) (by rw [cur_length]; exact hq)
    have e : w ++ s ++ b = w ++ (s ++ b) := by simp
    rw [e] at hc0
    rcases hc0 with rfl | ⟨m0, hn⟩
    · rcases cmp_cost h' (q := q) (by rw [cur_length, ← e]; exact hq) with hc | ⟨hop, -⟩
      · dsimp only [levelCost] at *
        omega
      · exact (not_opens hv hop).elim
    · obtain ⟨-, he⟩ := run_rule_det hn hv
      cases he
      have := ih hb (by rw [e, List.length_append] at hq; omega) h'
      have hl := Nat.mul_le_mul_right (sg (92 * pass q) d) (show s.length ≤ (w ++ s).length by simp)
      dsimp only [levelCost] at *
      omega
  | @andNot d pre s n h0 ih =>
    intro b hb hq k o h
    have hP := pass_pos (c := cur pre (s ++ b)) (q := q) (by rw [cur_length]; exact hq)
    have hb' : Follow .not b := hb.mono fun t ht => .inr ht
    obtain ⟨m, hm⟩ := ok_run0 (clause_complete (ctx := ⟨false, []⟩) h0.text hb')
    obtain ⟨k1, o1, h1, hh⟩ := chain_inv h (q := q) (by rw [cur_length]; exact hq) (by decide) (by decide) (by decide) rfl
    have b1 := ih hb' hq h1
    obtain ⟨-, rfl⟩ := run0_det h1 hm
    have hs : 1 ≤ s.length := by
      obtain ⟨x, t, rfl, -⟩ := text_head h0.text
      simp
    have e1 : s.length * (44 * pass q + 2 * sg (92 * pass q) d) =
      s.length * (44 * pass q) + 2 * (s.length * sg (92 * pass q) d) := by ring
    have e2 := Nat.mul_le_mul_right (44 * pass q) hs
    rcases hh with ⟨-, hk⟩ | ⟨c1, c2, c3, c4, n2, n3, k5, o5, he, h2, h3, -⟩
    · dsimp only [levelCost] at *
      omega
    · cases he
      exact (follow_no_and hb ⟨_, _, _, _, h2, h3⟩).elim
  | @and d pre x l w1 w2 y r h1 hw1 hw2 h2 ih1 ih2 =>
    intro b hb hq k o h
    have hP := pass_pos (c := cur pre (x ++ (w1 ++ ("AND".toList ++ (w2 ++ y))) ++ b)) (q := q) (by rw [cur_length]; exact hq)
    have e : x ++ (w1 ++ ("AND".toList ++ (w2 ++ y))) ++ b = x ++ (w1 ++ ("AND".toList ++ (w2 ++ (y ++ b)))) := by simp
    obtain ⟨m, hm⟩ := ok_run0 (clause_complete (ctx := ⟨false, []⟩) (Text.and h1.text hw1 hw2 h2.text) hb)
    obtain ⟨rfl, rfl⟩ := run0_det h hm
    rw [e] at h hm hq
    have hf : Follow .not (w1 ++ ("AND".toList ++ (w2 ++ (y ++ b)))) :=
      ⟨w1, _, rfl, hw1.1, .inr (.inr ⟨hw1.2, .inl ⟨_, rfl⟩⟩)⟩
    obtain ⟨m1, hm1⟩ := ok_run0 (clause_complete (ctx := ⟨false, []⟩) h1.text hf)
    obtain ⟨k1, o1, g1, hh⟩ := chain_inv h (q := q) (by rw [cur_length]; exact hq) (by decide) (by decide) (by decide) rfl
    have b1 := ih1 hf hq g1
    obtain ⟨-, rfl⟩ := run0_det g1 hm1
    have hlen : (x ++ (w1 ++ ("AND".toList ++ (w2 ++ y)))).length = x.length + (w1.length + (3 + (w2.length + y.length))) := by
      simp only [List.length_append]; rfl
    have hx : x.length + y.length + 1 ≤ (x ++ (w1 ++ ("AND".toList ++ (w2 ++ y)))).length := by omega
    have e1 := Nat.mul_le_mul_right (44 * pass q + 2 * sg (92 * pass q) d) hx
    have e2 : (x.length + y.length + 1) * (44 * pass q + 2 * sg (92 * pass q) d) =
      x.length * (44 * pass q) + 2 * (x.length * sg (92 * pass q) d) +
        y.length * (44 * pass q + 2 * sg (92 * pass q) d) + 44 * pass q + 2 * sg (92 * pass q) d := by ring
    rcases hh with ⟨-, hk⟩ | ⟨c1, c2, c3, c4, n2, n3, k5, o5, he, g2, g3, gs, hlt, -, g5, hh⟩
    · dsimp only [levelCost] at *
      omega
    · cases he
      -- where the second operand begins
      obtain ⟨m2, hm2⟩ := ok_run (rule_space.2 ⟨rfl, rfl, hw1, noHead_cons.2 (by decide)⟩ : RuleOk E ⟨false, []⟩ .space (pre ++ x)
        (w1 ++ ("AND".toList ++ (w2 ++ (y ++ b)))) _ w1 ("AND".toList ++ (w2 ++ (y ++ b))))
      obtain ⟨-, he⟩ := run_rule_det g2 hm2
      cases he
      obtain ⟨m3, hm3⟩ := ok_run (logicalAND_iff.2 ⟨rfl, rfl, rfl⟩ : RuleOk E ⟨false, []⟩ .logicalAND (pre ++ x ++ w1)
        ("AND".toList ++ (w2 ++ (y ++ b))) _ _ (w2 ++ (y ++ b)))
      obtain ⟨-, he⟩ := run_rule_det g3 hm3
      cases he
      obtain ⟨n4, g4⟩ := gs
      obtain ⟨m4, hm4⟩ := ok_run (rule_space.2 ⟨rfl, rfl, hw2, text_notWs h2.text⟩ : RuleOk E ⟨false, []⟩ .space
        (pre ++ x ++ w1 ++ "AND".toList) (w2 ++ (y ++ b)) _ w2 (y ++ b))
      obtain ⟨-, he⟩ := run_rule_det g4 hm4
      cases he
      have ep : pre ++ x ++ w1 ++ "AND".toList ++ w2 = pre ++ (x ++ (w1 ++ ("AND".toList ++ w2))) := by simp
      rw [ep] at g5
      have b5 := ih2 hb (by simp only [List.length_append] at hq ⊢; omega) g5
      rcases hh with ⟨-, hk⟩ | ⟨ho, -⟩
      · dsimp only [levelCost] at *
        omega
      · exfalso
        rcases ho with ho | ho
        · have := congrArg (fun c : Option Cursor => c.map fun c => c.rest.length) ho
          simp only [Option.map_some, cur_length, Option.some.injEq, List.length_append] at this
          have h3 : "AND".toList.length = 3 := rfl
          omega
        · cases ho
  | @orAnd d pre s n h0 ih =>
    intro b hb hq k o h
    have hP := pass_pos (c := cur pre (s ++ b)) (q := q) (by rw [cur_length]; exact hq)
    have hb' : Follow .and b := hb.mono fun t ht => ht.elim
    obtain ⟨m, hm⟩ := ok_run0 (clause_complete (ctx := ⟨false, []⟩) h0.text hb')
    obtain ⟨k1, o1, h1, hh⟩ := chain_inv h (q := q) (by rw [cur_length]; exact hq) (by decide) (by decide) (by decide) rfl
    have b1 := ih hb' hq h1
    obtain ⟨-, rfl⟩ := run0_det h1 hm
    have hs : 1 ≤ s.length := by
      obtain ⟨x, t, rfl, -⟩ := text_head h0.text
      simp
    have e1 : s.length * (92 * pass q + 4 * sg (92 * pass q) d) =
      2 * (s.length * (44 * pass q + 2 * sg (92 * pass q) d)) + s.length * (4 * pass q) := by ring
    have e2 := Nat.mul_le_mul_right (4 * pass q) hs
    rcases hh with ⟨-, hk⟩ | ⟨c1, c2, c3, c4, n2, n3, k5, o5, he, h2, h3, -⟩
    · dsimp only [levelCost] at *
      omega
    · cases he
      exact (follow_no_or hb ⟨_, _, _, _, h2, h3⟩).elim
  | @or d pre x l w1 w2 y r h1 hw1 hw2 h2 ih1 ih2 =>
    intro b hb hq k o h
    have hP := pass_pos (c := cur pre (x ++ (w1 ++ ("OR".toList ++ (w2 ++ y))) ++ b)) (q := q) (by rw [cur_length]; exact hq)
    have e : x ++ (w1 ++ ("OR".toList ++ (w2 ++ y))) ++ b = x ++ (w1 ++ ("OR".toList ++ (w2 ++ (y ++ b)))) := by simp
    obtain ⟨m, hm⟩ := ok_run0 (clause_complete (ctx := ⟨false, []⟩) (Text.or h1.text hw1 hw2 h2.text) hb)
    obtain ⟨rfl, rfl⟩ := run0_det h hm
    rw [e] at h hm hq
    have hf : Follow .and (w1 ++ ("OR".toList ++ (w2 ++ (y ++ b)))) :=
      ⟨w1, _, rfl, hw1.1, .inr (.inr ⟨hw1.2, ⟨_, rfl⟩⟩)⟩
    obtain ⟨m1, hm1⟩ := ok_run0 (clause_complete (ctx := ⟨false, []⟩) h1.text hf)
    obtain ⟨k1, o1, g1, hh⟩ := chain_inv h (q := q) (by rw [cur_length]; exact hq) (by decide) (by decide) (by decide) rfl
    have b1 := ih1 hf hq g1
    obtain ⟨-, rfl⟩ := run0_det g1 hm1
    have hlen : (x ++ (w1 ++ ("OR".toList ++ (w2 ++ y)))).length = x.length + (w1.length + (2 + (w2.length + y.length))) := by
      simp only [List.length_append]; rfl
    have hx : x.length + y.length + 1 ≤ (x ++ (w1 ++ ("OR".toList ++ (w2 ++ y)))).length := by omega
    have e1 := Nat.mul_le_mul_right (92 * pass q + 4 * sg (92 * pass q) d) hx
    have e2 : (x.length + y.length + 1) * (92 * pass q + 4 * sg (92 * pass q) d) =
      2 * (x.length * (44 * pass q + 2 * sg (92 * pass q) d)) + x.length * (4 * pass q) +
        y.length * (92 * pass q + 4 * sg (92 * pass q) d) + 92 * pass q + 4 * sg (92 * pass q) d := by ring
    rcases hh with ⟨-, hk⟩ | ⟨c1, c2, c3, c4, n2, n3, k5, o5, he, g2, g3, gs, hlt, -, g5, hh⟩
    · dsimp only [levelCost] at *
      omega
    · cases he
      obtain ⟨m2, hm2⟩ := ok_run (rule_space.2 ⟨rfl, rfl, hw1, noHead_cons.2 (by decide)⟩ : RuleOk E ⟨false, []⟩ .space (pre ++ x)
        (w1 ++ ("OR".toList ++ (w2 ++ (y ++ b)))) _ w1 ("OR".toList ++ (w2 ++ (y ++ b))))
      obtain ⟨-, he⟩ := run_rule_det g2 hm2
      cases he
      obtain ⟨m3, hm3⟩ := ok_run (logicalOR_iff.2 ⟨rfl, rfl, rfl⟩ : RuleOk E ⟨false, []⟩ .logicalOR (pre ++ x ++ w1)
        ("OR".toList ++ (w2 ++ (y ++ b))) _ _ (w2 ++ (y ++ b)))
      obtain ⟨-, he⟩ := run_rule_det g3 hm3
      cases he
      obtain ⟨n4, g4⟩ := gs
      obtain ⟨m4, hm4⟩ := ok_run (rule_space.2 ⟨rfl, rfl, hw2, text_notWs h2.text⟩ : RuleOk E ⟨false, []⟩ .space
        (pre ++ x ++ w1 ++ "OR".toList) (w2 ++ (y ++ b)) _ w2 (y ++ b))
      obtain ⟨-, he⟩ := run_rule_det g4 hm4
      cases he
      have ep : pre ++ x ++ w1 ++ "OR".toList ++ w2 = pre ++ (x ++ (w1 ++ ("OR".toList ++ w2))) := by simp
      rw [ep] at g5
      have b5 := ih2 hb (by simp only [List.length_append] at hq ⊢; omega) g5
      rcases hh with ⟨-, hk⟩ | ⟨ho, -⟩
      · dsimp only [levelCost] at *
        omega
      · exfalso
        rcases ho with ho | ho
        · have := congrArg (fun c : Option Cursor => c.map fun c => c.rest.length) ho
          simp only [Option.map_some, cur_length, Option.some.injEq, List.length_append] at this
          have h3 : "OR".toList.length = 2 := rfl
          omega
        · cases ho

/-- Cost of the whole parse of an accepted query. -/
theorem query_cost {d : Nat} {n : Node} (h : QueryIn E d s n) (hr : Run0 E (grammar .Start) (cur [] s) k o) :
    k ≤ 160000 * (s.length + 1) ^ 3 * 4 ^ d := by
  obtain ⟨w1, t, w2, hw1, hw2, ht, rfl⟩ := h
  set s := w1 ++ (t ++ w2) with hs
  set q := s.length + 1 with hq
  have hP := pass_pos (c := cur [] s) (q := q) (by rw [cur_length])
  have hb : k ≤ 5 * pass q + q * sg (92 * pass q) (d + 1) := by
    rcases start_inv hr (q := q) (by rw [cur_length]) with hk | ⟨c1, m, k1, o1, h1, h2, hk⟩
    · omega
    · obtain ⟨m1, hm⟩ := ok_run (ws_ok (E := E) (ctx := ⟨false, []⟩) (pre := []) hw1 (text_notWs (b := w2) ht.text))
      obtain ⟨-, he⟩ := run_rule_det h1 hm
      cases he
      rw [List.nil_append] at h2
      have hls : s.length = w1.length + (t ++ w2).length := List.length_append
      have hl : (t ++ w2).length + 1 ≤ q := by omega
      have := text_cost (q := q) ht ⟨w2, [], by simp, hw2, .inl rfl⟩ hl h2
      have hl2 : t.length ≤ q := by rw [List.length_append] at hl; omega
      have := Nat.mul_le_mul_right (92 * pass q + 4 * sg (92 * pass q) d) hl2
      dsimp only [levelCost, sg] at *
      omega
  have hsg := sg_pow (92 * pass q) (d + 1)
  have hpow : 1 ≤ 4 ^ d := Nat.pow_pos (by omega)
  have hsg3 : 3 * (q * sg (92 * pass q) (d + 1)) ≤ q * (92 * pass q * 4 ^ (d + 1)) := by
    calc 3 * (q * sg (92 * pass q) (d + 1)) = q * (3 * sg (92 * pass q) (d + 1)) := by ring
      _ ≤ q * (92 * pass q * 4 ^ (d + 1)) := Nat.mul_le_mul_left _ (by omega)
  have e1 : q * (92 * pass q * 4 ^ (d + 1)) = 404800 * (q ^ 3 * 4 ^ d) := by unfold pass; ring
  have e2 : pass q ≤ 1100 * q ^ 3 := by
    unfold pass
    have : q ^ 2 ≤ q ^ 3 := Nat.pow_le_pow_right (by omega) (by omega)
    omega
  have e3 : q ^ 3 ≤ q ^ 3 * 4 ^ d := Nat.le_mul_of_pos_right _ hpow
  have e4 : 160000 * q ^ 3 * 4 ^ d = 160000 * (q ^ 3 * 4 ^ d) := by ring
  rw [e4]
  omega

end Aql
