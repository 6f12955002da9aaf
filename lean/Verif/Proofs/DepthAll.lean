import Verif.Proofs.Balance
/-!
Cost of parsing a text without quotes and slashes, accepted or not: four to the depth of its parentheses.
-/

namespace Aql

open Spec

variable {E : Env} {ctx : Ctx} {fr fr' : VFrame} {c c' : Cursor} {v : PV} {l : List Ev}

/-- A comparison is a group, or what it reads has its parentheses in pairs. -/
theorem cmp_ok {k : Nat} (h : Run0 E (grammar .Comparison) c k (some c')) (hp : PlainAhead c) :
    (∃ c1 c2 c3 c4 n1 n2 n3 n4 n5 w1 w2, Run E (.lit ['('] false w1) c n1 (some c1) ∧
      Run E (.rule .ws) c1 n2 (some c2) ∧ Run0 E (grammar .OrClause) c2 n3 (some c3) ∧
      Run E (.rule .ws) c3 n4 (some c4) ∧ Run E (.lit [')'] false w2) c4 n5 (some c')) ∨
      (¬ Opens c ∧ Even c c') := by
  obtain ⟨k0, -, h⟩ := run_choice h
  obtain ⟨k1, o1, h1, h⟩ := runAlt_cons h
  rcases h with ⟨rfl, -⟩ | ⟨-, k2, h, -⟩
  · left
    obtain ⟨k2, o2, -, h1, ho⟩ := run_action h1
    rcases ho with rfl | ho
    case inr => cases ho
    obtain ⟨k3, -, h1⟩ := run_seq h1
    obtain ⟨n1, o1, g1, h1⟩ := runSeq_cons h1
    rcases h1 with ⟨-, h1, -⟩ | ⟨c1, k4, rfl, h1, -⟩
    case inl => cases h1
    obtain ⟨n2, o2, g2, h1⟩ := runSeq_cons h1
    rcases h1 with ⟨-, h1, -⟩ | ⟨c2, k5, rfl, h1, -⟩
    case inl => cases h1
    obtain ⟨n3, o3, g3, h1⟩ := runSeq_cons h1
    rcases h1 with ⟨-, h1, -⟩ | ⟨c3, k6, rfl, h1, -⟩
    case inl => cases h1
    obtain ⟨n4, o4, g4, h1⟩ := runSeq_cons h1
    rcases h1 with ⟨-, h1, -⟩ | ⟨c4, k7, rfl, h1, -⟩
    case inl => cases h1
    obtain ⟨n5, o5, g5, h1⟩ := runSeq_cons h1
    rcases h1 with ⟨-, h1, -⟩ | ⟨c5, k8, rfl, h1, -⟩
    case inl => cases h1
    obtain ⟨-, h1⟩ := runSeq_nil h1
    cases h1
    obtain ⟨n6, -, g3⟩ := run_label g3
    obtain ⟨n7, -, g3⟩ := run_rule g3.run
    exact ⟨c1, c2, c3, c4, _, _, _, _, _, _, _, g1, g2, g3, g4, g5⟩
  · right
    obtain ⟨k3, o3, h3, h⟩ := runAlt_cons h
    rcases h with ⟨rfl, -⟩ | ⟨-, k4, h, -⟩
    · exact ⟨fun hop => stuck_no_field h3 hop.stuck, run_even h3.run hp (by decide)⟩
    · obtain ⟨k5, o5, h5, h⟩ := runAlt_cons h
      rcases h with ⟨rfl, -⟩ | ⟨-, k6, h, -⟩
      · refine ⟨fun hop => stuck_no_field h5 hop.stuck, ?_⟩
        obtain ⟨l, r, h5, -, hr⟩ := h5
        have key : ∀ {l v0 v c' fr' o}, Big E ⟨false, []⟩ (.expr (.seq [.label .field (.rule .Field),
              .rule .ws,
              .lit [':'] false "\":\"".toList,
              .rule .ws,
              .label .operation (.opt (.rule .opComp)),
              .rule .ws,
              .label .values (.rule .ValueList)]) []) c l (.ok v0 c' fr') →
            runAct E .onComparison19 fr' (textOf c c') c.loc = .ok (v, o) → Even c c' := by
          intro l v0 v c' fr' o h hr
          cases h with
          | seq h =>
          cases h with
          | seq_cons g1 h =>
          cases h with
          | seq_cons g2 h =>
          cases h with
          | seq_cons g3 h =>
          cases h with
          | seq_cons g4 h =>
          cases h with
          | seq_cons g5 h =>
          cases h with
          | seq_cons g6 h =>
          cases h with
          | seq_cons g7 h =>
          cases h with
          | seq_nil =>
          obtain ⟨e1, p1⟩ := bare_even g1 hp (by decide)
          obtain ⟨e2, p2⟩ := bare_even g2 p1 (by decide)
          obtain ⟨e3, p3⟩ := bare_even g3 p2 (by decide)
          obtain ⟨e4, p4⟩ := bare_even g4 p3 (by decide)
          obtain ⟨e5, p5⟩ := bare_even g5 p4 (by decide)
          obtain ⟨e6, p6⟩ := bare_even g6 p5 (by decide)
          cases g7 with
          | label_stop _ hs => exact hs.elim
          | label_ok g7 =>
          have e7 := values_even g7 p6 (by
            rintro rfl
            simp only [runAct, bind, Except.bind] at hr
            split at hr
            · cases hr
            · split at hr
              · cases hr
              · split at hr
                · cases hr
                · rename_i hv
                  cases hv)
          exact e1.trans (e2.trans (e3.trans (e4.trans (e5.trans (e6.trans e7)))))
        cases h5 with
        | action_ok h hr' => cases hr; exact key h hr'
        | action_err h hr' => cases hr; exact key h hr'
        | action_panic => cases hr
        | action_stop _ hs => rw [fin_stop hs] at hr; cases hr
      · obtain ⟨-, h⟩ := runAlt_nil h
        cases h

/-- Clauses with parentheses in pairs. -/
def EvenAt (E : Env) (r : Rule) (c : Cursor) : Prop := ∀ k c', Run0 E (grammar r) c k (some c') → Even c c'

theorem chain_even {A S op : Rule} {a : Act} {x y : PLabel} {k : Nat}
    (h : Run0 E (.choice [.action a (.seq [.label x (.rule A), .rule .space, .rule op, .rule .space,
      .label y (.rule S)]), .rule A]) c k (some c')) (hp : PlainAhead c) (hf : flatE (.rule op) = true)
    (hk : coef (.rule op) ≤ 1100) (hd : deg (.rule op) ≤ 2) (hn : nul (.rule op) = false) (hb : rbare op = true)
    (hA : EvenAt E A c) (hS : ∀ c1, c1.rest.length < c.rest.length → PlainAhead c1 → EvenAt E S c1) : Even c c' := by
  obtain ⟨k1, o1, h1, hh⟩ := chain_inv h (Nat.le_refl _) hf hk hd hn
  rcases hh with ⟨ho, -⟩ | ⟨c1, c2, c3, c4, n2, n3, k5, o5, rfl, h2, h3, ⟨n4, h4⟩, hlt, -, h5, hh⟩
  · rcases ho with rfl | ho
    · exact hA _ _ h1
    · cases ho
  · have hA := hA _ _ h1
    rcases hh with ⟨rfl, -⟩ | ⟨ho, -⟩
    · have p1 := run_plain h1.run hp
      have p2 := run_plain h2 p1
      have p3 := run_plain h3 p2
      have p4 := run_plain h4 p3
      have hle := run_le h1.run
      exact hA.trans ((run_even h2 p1 (by decide)).trans ((run_even h3 p2 hb).trans
        ((run_even h4 p3 (by decide)).trans (hS c4 (by omega) p4 _ _ h5))))
    · rcases ho with ho | ho
      · cases ho; exact hA
      · cases ho

theorem even_clauses (n : Nat) : ∀ c : Cursor, c.rest.length = n → PlainAhead c →
    EvenAt E .OrClause c ∧ EvenAt E .AndClause c ∧ EvenAt E .NotClause c ∧ EvenAt E .Comparison c := by
  induction n using Nat.strong_induction_on with
  | _ n ih =>
    intro c hc hp
    have hcmp : ∀ c1, c1.rest.length ≤ n → PlainAhead c1 → EvenAt E .Comparison c1 := by
      intro c1 hl hp k c' h
      rcases cmp_ok h hp with ⟨d1, d2, d3, d4, n1, n2, n3, n4, n5, w1, w2, g1, g2, g3, g4, g5⟩ | ⟨-, h⟩
      · have q1 := run_plain g1 hp
        have q2 := run_plain g2 q1
        have q3 := run_plain g3.run q2
        have l1 := run_reads g1 rfl
        have l2 := run_le g2
        exact .parens g1 ((run_even g2 q1 (by decide)).trans (((ih _ (by omega) d2 rfl q2).1 _ _ g3).trans
          (run_even g4 q3 (by decide)))) g5
      · exact h
    have hnot : EvenAt E .NotClause c := by
      intro k c' h
      obtain ⟨k0, -, h⟩ := run_choice h
      obtain ⟨k1, o1, h1, h⟩ := runAlt_cons h
      rcases h with ⟨rfl, -⟩ | ⟨-, k2, h, -⟩
      · obtain ⟨k2, o2, -, h1, ho⟩ := run_action h1
        rcases ho with rfl | ho
        case inr => cases ho
        obtain ⟨k3, -, h1⟩ := run_seq h1
        obtain ⟨n1, o1, g1, h1⟩ := runSeq_cons h1
        rcases h1 with ⟨-, h1, -⟩ | ⟨c1, k4, rfl, h1, -⟩
        case inl => cases h1
        obtain ⟨n2, o2, g2, h1⟩ := runSeq_cons h1
        rcases h1 with ⟨-, h1, -⟩ | ⟨c2, k5, rfl, h1, -⟩
        case inl => cases h1
        obtain ⟨-, h1⟩ := runSeq_nil h1
        cases h1
        obtain ⟨n3, -, g2⟩ := run_label g2
        obtain ⟨n4, -, g2⟩ := run_rule g2.run
        have hle := run_le g1
        exact (run_even g1 hp (by decide)).trans (hcmp c1 (by omega) (run_plain g1 hp) _ _ g2)
      · obtain ⟨k3, o3, h3, h⟩ := runAlt_cons h
        rcases h with ⟨rfl, -⟩ | ⟨-, k4, h, -⟩
        · obtain ⟨n4, -, h3⟩ := run_rule h3.run
          exact hcmp c (by omega) hp _ _ h3
        · obtain ⟨-, h⟩ := runAlt_nil h
          cases h
    have hand : EvenAt E .AndClause c := fun k c' h =>
      chain_even h hp (by decide) (by decide) (by decide) rfl rfl hnot
        fun c1 hl hp => (ih _ (by omega) c1 rfl hp).2.1
    exact ⟨fun k c' h => chain_even h hp (by decide) (by decide) (by decide) rfl rfl hand
      fun c1 hl hp => (ih _ (by omega) c1 rfl hp).1, hand, hnot, hcmp c (by omega) hp⟩

/-! ### Cost -/

/-- No quotes and slashes, and at most `d` parentheses deeper than here. -/
def Lvl (d : Nat) (c : Cursor) : Prop := PlainAhead c ∧ ∃ l, deepest l (c.rest.map Sym.rune) ≤ l + d

theorem Lvl.even {d : Nat} (h : Lvl d c) (hp : PlainAhead c') (he : Even c c') : Lvl d c' := by
  obtain ⟨-, l, h⟩ := h
  exact ⟨hp, l, (he l).trans h⟩

theorem Lvl.run {d k : Nat} {e : PExpr} (h : Lvl d c) (hr : Run E e c k (some c')) (he : bareE e = true) : Lvl d c' :=
  h.even (run_plain hr h.1) (run_even hr h.1 he)

theorem Lvl.enter {d k : Nat} {w : Str} (h : Lvl d c) (hr : Run E (.lit ['('] false w) c k (some c')) :
    ∃ d', d = d' + 1 ∧ Lvl d' c' := by
  obtain ⟨hp, l, h⟩ := h
  obtain ⟨t, ht, hm⟩ := run_lit hr
  rw [ht.rest, List.map_append, hm, List.cons_append, List.nil_append, deepest_open] at h
  have hge := deepest_ge (l + 1) (c'.rest.map Sym.rune)
  refine ⟨d - 1, by omega, hp.adv ht, l + 1, by omega⟩

theorem lit_same {x : Char} {w w' : Str} {k k' : Nat} {c1 c2 : Cursor} (h : Run E (.lit [x] false w) c k (some c1))
    (h' : Run E (.lit [x] false w') c k' (some c2)) : c1 = c2 := by
  obtain ⟨t, ht, hm⟩ := run_lit h
  obtain ⟨u, hu, hm'⟩ := run_lit h'
  cases ht with
  | refl => cases hm
  | step hr ht =>
    cases ht with
    | step => cases hm
    | refl =>
      cases hu with
      | refl => cases hm'
      | step hr hu =>
        cases hu with
        | step => cases hm'
        | refl => rfl

/-- What is shown of a disjunction. -/
def OrAt (E : Env) (B d : Nat) (c : Cursor) (k : Nat) (o : Option Cursor) : Prop :=
  k ≤ (c.rest.length + 1) * sg B (d + 1) ∧ ∀ c', o = some c' →
    k + c'.rest.length * sg B (d + 1) ≤ (c.rest.length + 1) * sg B (d + 1) ∨ AndFollows E c' ∨ OrFollows E c'

variable {k : Nat} {o : Option Cursor}

theorem cmp_at {q B d : Nat} (h : Run0 E (grammar .Comparison) c k o) (hq : c.rest.length + 1 ≤ q) (hl : Lvl d c)
    (ih : ∀ d c2 k2 o2, Lvl d c2 → Run0 E (grammar .OrClause) c2 k2 o2 → c2.rest.length < c.rest.length →
      OrAt E B d c2 k2 o2) :
    (k ≤ 5 * pass q ∨ Opens c) ∧ k ≤ 5 * pass q + c.rest.length * sg B d ∧
      ∀ c', o = some c' → k + c'.rest.length * sg B d ≤ 5 * pass q + c.rest.length * sg B d := by
  rcases cmp_cost h hq with hb | ⟨hop, c2, k2, o2, ⟨c1, m1, m2, w, g1, g2⟩, h2, hlt, -, hk, hs⟩
  · refine ⟨.inl hb, by omega, ?_⟩
    rintro c' rfl
    have := Nat.mul_le_mul_right (sg B d) (run_le h.run)
    omega
  · obtain ⟨d', rfl, l1⟩ := hl.enter g1
    have l2 := l1.run g2 (by decide)
    obtain ⟨b, s⟩ := ih d' c2 k2 o2 l2 h2 hlt
    have hm := Nat.mul_le_mul_right (sg B (d' + 1)) (show c2.rest.length + 1 ≤ c.rest.length by omega)
    refine ⟨.inr hop, by omega, ?_⟩
    rintro c' rfl
    obtain ⟨c3, rfl, -, na, no⟩ := hs c' rfl
    have hle : c'.rest.length ≤ c3.rest.length := by
      rcases cmp_ok h hl.1 with ⟨d1, d2, d3, d4, n1, n2, n3, n4, n5, w1, w2, f1, f2, f3, f4, f5⟩ | ⟨hno, -⟩
      · obtain rfl := lit_same g1 f1
        obtain ⟨-, he⟩ := run_rule_det g2 f2
        cases he
        obtain ⟨-, he⟩ := run0_det h2 f3
        cases he
        exact (run_le f5).trans (run_le f4)
      · exact (hno hop).elim
    have hm' := Nat.mul_le_mul_right (sg B (d' + 1)) hle
    rcases s c3 rfl with s | s | s
    · omega
    · exact (na s).elim
    · exact (no s).elim

theorem not_at {q B d : Nat} (h : Run0 E (grammar .NotClause) c k o) (hq : c.rest.length + 1 ≤ q) (hl : Lvl d c)
    (ih : ∀ d c2 k2 o2, Lvl d c2 → Run0 E (grammar .OrClause) c2 k2 o2 → c2.rest.length < c.rest.length →
      OrAt E B d c2 k2 o2) :
    k ≤ 20 * pass q + c.rest.length * sg B d ∧
      ∀ c', o = some c' → k + c'.rest.length * sg B d ≤ 20 * pass q + c.rest.length * sg B d := by
  have hP := pass_pos hq
  obtain ⟨k0, rfl, h'⟩ := run_choice h
  clear h; rename' h' => h
  obtain ⟨k1, o1, h1', h'⟩ := runAlt_cons h
  clear h; rename' h1' => h1, h' => h
  obtain ⟨k2, o2, rfl, h1', ho⟩ := run_action h1
  clear h1; rename' h1' => h1
  obtain ⟨k3, rfl, h1'⟩ := run_seq h1
  clear h1; rename' h1' => h1
  obtain ⟨k4, o4, h4', h1'⟩ := runSeq_cons h1
  clear h1; rename' h4' => h4, h1' => h1
  have b4 : k4 ≤ pass q := run_flat h4 (by decide) hq
  have last : ∀ {k : Nat} {o : Option Cursor}, RunAlt E [.rule .Comparison] c k o →
      ∃ k', k = k' + 1 ∧ Run0 E (grammar .Comparison) c k' o := by
    intro k o h
    obtain ⟨k1, o1, h1', h'⟩ := runAlt_cons h
    clear h; rename' h1' => h1, h' => h
    obtain ⟨k', rfl, h1'⟩ := run_rule h1.run
    clear h1; rename' h1' => h1
    rcases h with ⟨rfl, rfl⟩ | ⟨rfl, k2, h, rfl⟩
    · exact ⟨_, rfl, h1⟩
    · obtain ⟨rfl, rfl⟩ := runAlt_nil h
      exact ⟨_, rfl, h1⟩
  rcases h1 with ⟨rfl, rfl, rfl⟩ | ⟨c1, k5, rfl, h1, rfl⟩
  · -- no negation sign
    have ho1 : o1 = none := by rcases ho with ho | ho <;> exact ho
    subst ho1
    rcases h with ⟨rfl, rfl⟩ | ⟨-, k2, h, rfl⟩
    · exact ⟨by omega, fun c' hc' => by cases hc'⟩
    · obtain ⟨k6, rfl, h'⟩ := last h
      obtain ⟨-, b, s⟩ := cmp_at h' hq hl ih
      refine ⟨by omega, fun c' hc' => ?_⟩
      have := s c' hc'
      omega
  · obtain ⟨u, hu, hne, hs⟩ := run_logicalNOT h4
    have hlt : c1.rest.length < c.rest.length := run_reads h4 rfl
    have hpl := Nat.mul_le_mul_right (sg B d) (Nat.le_of_lt hlt)
    have hnop : ¬ Opens c := by
      rintro ⟨s, t, hr, hp⟩
      rw [hu.rest] at hr
      rcases u with _ | ⟨x, u⟩
      · exact hne rfl
      · cases hr
        exact absurd (List.mem_cons_of_mem _ (List.mem_cons_of_mem _ (List.mem_cons_of_mem _ (by rw [hp]; simp))))
          (hs s (by simp))
    obtain ⟨k6, o6, h6', h1'⟩ := runSeq_cons h1
    clear h1; rename' h6' => h6, h1' => h1
    obtain ⟨k7, rfl, h6'⟩ := run_label h6
    clear h6; rename' h6' => h6
    obtain ⟨k8, rfl, h6'⟩ := run_rule h6.run
    clear h6; rename' h6' => h6
    have hk : k5 = k8 + 1 + 1 ∧ o2 = o6 := by
      rcases h1 with ⟨rfl, rfl, rfl⟩ | ⟨c2, k9, rfl, h1, rfl⟩
      · exact ⟨rfl, rfl⟩
      · obtain ⟨rfl, rfl⟩ := runSeq_nil h1
        exact ⟨rfl, rfl⟩
    obtain ⟨rfl, rfl⟩ := hk
    obtain ⟨hc1, b8, s8⟩ := cmp_at h6 (q := q) (B := B) (by omega) (hl.run h4 (by decide))
      fun d c2 k2 o2 g a b => ih d c2 k2 o2 g a (by omega)
    rcases h with ⟨rfl, rfl⟩ | ⟨rfl, k9, h, rfl⟩
    · refine ⟨by omega, ?_⟩
      rintro c' rfl
      rcases ho with rfl | ho
      · have := s8 c' rfl
        omega
      · cases ho
    · -- the second alternative does not enter parentheses
      obtain ⟨k10, rfl, h'⟩ := last h
      clear h; rename' h' => h
      obtain ⟨hc, -, -⟩ := cmp_at h hq hl ih
      have hc := hc.resolve_right hnop
      refine ⟨by omega, ?_⟩
      rintro c' rfl
      rcases hc1 with hc1 | hop
      · have := Nat.mul_le_mul_right (sg B d) (run_le h.run)
        omega
      · -- after the sign comes a parenthesis: the second alternative fails
        refine (hnop (cmp_stuck h ?_)).elim
        obtain ⟨x, w, hr, hx⟩ := hop
        exact ⟨u, x, w, by rw [hu.rest, hr], hx, hs⟩

theorem and_at {q B d m : Nat} (hq : m + 1 ≤ q)
    (ih : ∀ d c2 k2 o2, Lvl d c2 → Run0 E (grammar .OrClause) c2 k2 o2 → c2.rest.length < m →
      OrAt E B d c2 k2 o2) (n : Nat) :
    ∀ c : Cursor, c.rest.length = n → n ≤ m → Lvl d c → ∀ k o, Run0 E (grammar .AndClause) c k o →
      k ≤ (n + 1) * (50 * pass q + 2 * sg B d) ∧
      ∀ c', o = some c' → k + c'.rest.length * (50 * pass q + 2 * sg B d) ≤ n * (50 * pass q + 2 * sg B d) ∨
        AndFollows E c' := by
  induction n using Nat.strong_induction_on with
  | _ n ihn =>
    intro c hc hm hl k o h
    have hP := pass_pos (c := c) (q := q) (by omega)
    obtain ⟨k1, o1, h1, hh⟩ := chain_inv h (q := q) (by omega) (by decide) (by decide) (by decide) rfl
    obtain ⟨b1, s1⟩ := not_at h1 (q := q) (B := B) (by omega) hl
      fun d c2 k2 o2 g a b => ih d c2 k2 o2 g a (by omega)
    have hs0 : ∀ c', o1 = some c' → c'.rest.length + 1 ≤ n := by
      rintro c' rfl
      have := run_reads h1.run rfl
      omega
    rw [hc] at b1 s1
    generalize sg B d = C at *
    generalize hA : 50 * pass q = A at *
    have hn1 : (n + 1) * (A + 2 * C) = n * A + A + 2 * (n * C) + 2 * C := by ring
    have hn0 : ∀ n, n * (A + 2 * C) = n * A + 2 * (n * C) := by intro n; ring
    rw [hn1]
    simp only [hn0]
    rcases hh with ⟨ho, hk⟩ | ⟨c1, c2, c3, c4, n2, n3, k5, o5, rfl, h2, h3, ⟨n4, h4⟩, hlt, -, h5, hh⟩
    · refine ⟨by omega, ?_⟩
      rintro c' rfl
      rcases ho with rfl | ho
      · left
        have := s1 c' rfl
        have hl := Nat.mul_le_mul_right A (hs0 c' rfl)
        rw [Nat.add_mul, Nat.one_mul] at hl
        omega
      · cases ho
    · have hl1 := hs0 c1 rfl
      have := s1 c1 rfl
      have e1 := (even_clauses (E := E) _ c rfl hl.1).2.2.1 _ _ h1
      have l4 := (((hl.even (run_plain h1.run hl.1) e1).run h2 (by decide)).run h3 (by decide)).run h4 (by decide)
      obtain ⟨b5, s5⟩ := ihn c4.rest.length (by omega) c4 rfl (by omega) l4 k5 o5 h5
      rw [show (c4.rest.length + 1) * (A + 2 * C) = c4.rest.length * A + A + 2 * (c4.rest.length * C) + 2 * C by ring]
        at b5
      simp only [hn0] at s5
      have hlA := Nat.mul_le_mul_right A (show c4.rest.length + 1 + 1 ≤ n by omega)
      rw [Nat.add_mul, Nat.add_mul, Nat.one_mul] at hlA
      have hlC := Nat.mul_le_mul_right C (show c4.rest.length + 1 ≤ c1.rest.length by omega)
      rw [Nat.add_mul, Nat.one_mul] at hlC
      rcases hh with ⟨rfl, hk⟩ | ⟨ho, hk⟩
      · refine ⟨by omega, ?_⟩
        intro c' hc'
        rcases s5 c' hc' with s5 | s5
        · left; omega
        · exact .inr s5
      · refine ⟨by omega, ?_⟩
        rintro c' rfl
        rcases ho with ho | ho
        · cases ho
          exact .inr ⟨_, _, _, _, h2, h3⟩
        · cases ho

theorem or_at {q B : Nat} (hB : B = 105 * pass q) (n : Nat) :
    ∀ d, ∀ c : Cursor, c.rest.length = n → n + 1 ≤ q → Lvl d c → ∀ k o, Run0 E (grammar .OrClause) c k o →
      OrAt E B d c k o := by
  induction n using Nat.strong_induction_on with
  | _ n ihn =>
    intro d c hc hq hl k o h
    have hP := pass_pos (c := c) (q := q) (by omega)
    obtain ⟨k1, o1, h1, hh⟩ := chain_inv h (q := q) (by omega) (by decide) (by decide) (by decide) rfl
    obtain ⟨b1, s1⟩ := and_at (E := E) (q := q) (B := B) (d := d) (m := n) hq (fun d c2 k2 o2 g a b =>
      ihn c2.rest.length b d c2 rfl (by omega) g k2 o2 a) n c hc (by omega) hl k1 o1 h1
    unfold OrAt
    rw [hc]
    have ihn' := fun (c4 : Cursor) (hlt : c4.rest.length < n) (l4 : Lvl d c4) k5 o5 h5 =>
      ihn c4.rest.length hlt d c4 rfl (by omega) l4 k5 o5 h5
    unfold OrAt at ihn'
    rw [sg_succ] at ihn' ⊢
    clear ihn
    generalize sg B d = C at *
    subst hB
    have hW : 105 * pass q + 4 * C = 2 * (50 * pass q + 2 * C) + 5 * pass q := by ring
    rw [hW] at ihn' ⊢
    generalize 50 * pass q + 2 * C = A at *
    generalize hQ : 5 * pass q = Q at *
    clear hW
    have a1 : ∀ n, (n + 1) * (2 * A + Q) = 2 * (n * A) + n * Q + (2 * A + Q) := by intro n; ring
    have a3 : ∀ n, n * (2 * A + Q) = 2 * (n * A) + n * Q := by intro n; ring
    have a2 : ∀ n, (n + 1) * A = n * A + A := by intro n; ring
    have a4 : ∀ n, (n + 1) * Q = n * Q + Q := by intro n; ring
    simp only [a1, a3] at ihn' ⊢
    rw [a2] at b1
    rcases hh with ⟨ho, hk⟩ | ⟨c1, c2, c3, c4, n2, n3, k5, o5, rfl, h2, h3, ⟨n4, h4⟩, hlt, -, h5, hh⟩
    · refine ⟨by omega, ?_⟩
      rintro c' rfl
      rcases ho with rfl | ho
      · rcases s1 c' rfl with s1 | s1
        · have := Nat.mul_le_mul_right Q (hc ▸ run_le h1.run : c'.rest.length ≤ n)
          left; omega
        · exact .inr (.inl s1)
      · cases ho
    · have hl1 : c1.rest.length ≤ n := hc ▸ run_le h1.run
      have e1 := (even_clauses (E := E) _ c rfl hl.1).2.1 _ _ h1
      have l4 := (((hl.even (run_plain h1.run hl.1) e1).run h2 (by decide)).run h3 (by decide)).run h4 (by decide)
      obtain ⟨b5, s5⟩ := ihn' c4 (by omega) l4 k5 o5 h5
      have s2 : k1 + c1.rest.length * A ≤ n * A := by
        rcases s1 c1 rfl with s1 | ⟨m2, m3, d2, d3, g2, g3⟩
        · exact s1
        · obtain ⟨-, he⟩ := run_rule_det h2 g2
          cases he
          exact (and_or_differ g3 h3).elim
      have hl4 := Nat.mul_le_mul_right A (show c4.rest.length + 1 ≤ c1.rest.length by omega)
      have hl5 := Nat.mul_le_mul_right Q (show c4.rest.length + 1 ≤ n by omega)
      rw [a2] at hl4
      rw [a4] at hl5
      have hl6 := Nat.mul_le_mul_right Q hl1
      rcases hh with ⟨rfl, hk⟩ | ⟨ho, hk⟩
      · refine ⟨by omega, fun c' hc' => ?_⟩
        rcases s5 c' hc' with s5 | s5
        · left; omega
        · exact .inr s5
      · refine ⟨by omega, ?_⟩
        rintro c' rfl
        rcases ho with ho | ho
        · cases ho
          exact .inr (.inr ⟨_, _, _, _, h2, h3⟩)
        · cases ho

/-- Cost of the parse of a text without quotes and slashes, accepted or not. -/
theorem start_at {d : Nat} (h : Run0 E (grammar .Start) c k o) (hl : Lvl d c) :
    k ≤ 160000 * (c.rest.length + 1) ^ 3 * 4 ^ d := by
  set q := c.rest.length + 1 with hqd
  have hk7 : k ≤ 5 * pass q + q * sg (105 * pass q) (d + 1) := by
    rcases start_inv h (q := q) (Nat.le_refl _) with hk | ⟨c1, m, k1, o1, h1, h2, hk⟩
    · omega
    · have hle := run_le h1
      obtain ⟨b, -⟩ := or_at (q := q) rfl _ d c1 rfl (by omega) (hl.run h1 (by decide)) k1 o1 h2
      have hm := Nat.mul_le_mul_right (sg (105 * pass q) (d + 1)) (show c1.rest.length + 1 ≤ q by omega)
      omega
  have hs := sg_pow (105 * pass q) (d + 1)
  have hpow : 1 ≤ 4 ^ d := Nat.pow_pos (by omega)
  have h3 : 3 * sg (105 * pass q) (d + 1) ≤ 3 * (140 * pass q * 4 ^ d) := by
    rw [Nat.pow_succ] at hs
    have : 105 * pass q * (4 ^ d * 4) = 3 * (140 * pass q * 4 ^ d) := by ring
    omega
  have h4 := Nat.mul_le_mul_left q (Nat.le_of_mul_le_mul_left h3 (by omega))
  have e1 : q * (140 * pass q * 4 ^ d) = 154000 * (q ^ 3 * 4 ^ d) := by unfold pass; ring
  have e2 : pass q ≤ 1100 * q ^ 3 := by
    unfold pass
    have : q ^ 2 ≤ q ^ 3 := Nat.pow_le_pow_right (by omega) (by omega)
    omega
  have e3 : q ^ 3 ≤ q ^ 3 * 4 ^ d := Nat.le_mul_of_pos_right _ hpow
  have e4 : 160000 * q ^ 3 * 4 ^ d = 160000 * (q ^ 3 * 4 ^ d) := by ring
  rw [e4]
  omega

end Aql
