import Verif.Proofs.WrongStart
import Verif.Proofs.ErrHole
/-!
Every message of the grammar other than "no match found" is about a wrong clause.
-/

namespace Aql

open Spec

variable {E : Env} {ctx : Ctx} {fr fr' : VFrame} {pre s a b : Str} {v : PV} {p : Loc} {k : RecErr}

/-! ### Paths -/

theorem flaw_fieldPiece (h : Er E ctx (.rule .FieldPiece) fr pre s p k) : Flawed E (WrongString E) pre s p k := by
  replace h := er_rule h
  rw [show grammar .FieldPiece = .choice [.rule .QuotedFieldPiece, .rule .UnquotedFieldPiece, .rule .Star] from rfl] at h
  replace h := er_choice h
  rcases h with h | ⟨-, h | ⟨-, h | ⟨-, h⟩⟩⟩
  · replace h := er_rule h
    rw [show grammar .QuotedFieldPiece = .action .onQuotedFieldPiece1 (.label .qv (.rule .QuotedValue)) from rfl] at h
    replace h := er_action h
    rcases h with h | ⟨_, u, post, g, _, h, hr, hp⟩
    · exact flaw_quoted (er_label h)
    · exfalso
      simp only [runAct, bind, Except.bind, pure, Except.pure] at hr
      split at hr
      · cases hr
      · simp at hr
  · exact (silent_er (E := E) (by silent) h).elim
  · exact (silent_er (E := E) (by silent) h).elim
  · exact h.elim

theorem flaw_field (h : Er E ctx (.rule .Field) fr pre s p k) : Flawed E (WrongClause E pre) pre s p k := by
  replace h := er_rule h
  rw [grammar_field] at h
  replace h := er_action h
  rcases h with h | ⟨_, u, post, g, _, h, hr, hp⟩
  · replace h := er_seq (er_label h)
    rcases h with h | ⟨_, t, _, _, h0, h | ⟨_, _, _, _, -, h⟩⟩
    · exact (flaw_fieldPiece h).mono fun v msg n hw => .name (p := []) (.inl rfl) hw
    · have h0 := (okR.1 h0).2
      have e := h0.split
      subst e
      obtain ⟨x, -, hx⟩ := fieldPiece_of h0
      replace h := er_star h
      obtain ⟨r, y, hrow, h⟩ := h
      have e3 := hrow.split
      subst e3
      obtain ⟨ys, hp⟩ := row_path hrow (.one hx)
      replace h := er_seq h
      rcases h with h | ⟨_, _, _, _, k, h | ⟨_, _, _, _, -, h⟩⟩
      · exact (er_lit h).elim
      · obtain ⟨-, rfl, rfl, -⟩ := ok_lit1.1 k
        have hf := flaw_fieldPiece h
        rw [show pre ++ t ++ r ++ ['.'] = pre ++ (t ++ r ++ ['.']) by simp] at hf
        have := hf.after (W' := WrongClause E pre) fun v msg n hw => .name (.inr ⟨_, _, hp, rfl⟩) hw
        simpa using this
      · exact h.elim
    · exact h.elim
  · exfalso
    simp only [ok_label, ok_seq, OkS] at h
    obtain ⟨rfl, _, v1, _, _, _, -, _, rfl, v2, _, _, _, -, _, rfl, -, -, rfl, -⟩ := h
    simp only [runAct, VFrame.get, PV.toAny, bind, Except.bind, pure, Except.pure] at hr
    repeat' (split at hr)
    all_goals (try cases hr)
    all_goals (try simp_all)

/-! ### Operators -/

/-- There is a longest operator at the beginning of every text. -/
theorem longest_op (s : Str) : ∃ a o, OpText a o ∧ a <+: s ∧ ∀ k x, OpText k x → k <+: s → k.length ≤ a.length := by
  have h2 : ∀ k x, OpText k x → k.length ≤ 2 := by intro k x h; cases h <;> simp
  by_cases h : ∃ a o, OpText a o ∧ a <+: s ∧ a.length = 2
  · obtain ⟨a, o, h, h', e⟩ := h
    exact ⟨a, o, h, h', fun k x hk _ => by rw [e]; exact h2 k x hk⟩
  · by_cases h' : ∃ a o, OpText a o ∧ a <+: s ∧ a.length = 1
    · obtain ⟨a, o, k1, k2, e⟩ := h'
      refine ⟨a, o, k1, k2, fun k x hk hp => ?_⟩
      have := h2 k x hk
      have : k.length ≠ 2 := fun e => h ⟨k, x, hk, hp, e⟩
      omega
    · refine ⟨[], _, .eq, List.nil_prefix, fun k x hk hp => ?_⟩
      have := h2 k x hk
      have : k.length ≠ 2 := fun e => h ⟨k, x, hk, hp, e⟩
      have : k.length ≠ 1 := fun e => h' ⟨k, x, hk, hp, e⟩
      show k.length ≤ 0
      omega

theorem opt_longest (h : Ok E ctx (.opt (.rule .opComp)) fr pre s v a b fr') :
    (∃ o, OpText a o) ∧ ∀ k x, OpText k x → k <+: s → k.length ≤ a.length := by
  obtain ⟨m, o, hm, ⟨c, rfl⟩, hl⟩ := longest_op s
  have : m = a := by
    rw [ok_opt] at h
    by_cases hm0 : m = []
    · subst hm0
      rcases h.2 with ⟨_, h⟩ | h
      · obtain ⟨op, -, ho⟩ := opComp_of (okR.1 h).2
        have := hl a op ho ⟨b, (okR.1 h).2.split.symm⟩
        exact (List.length_eq_zero_iff.1 (Nat.le_zero.1 this)).symm
      · exact h.2.2.1.symm
    · have hk := opComp_longest (E := E) (ctx := ctx) (pre := pre) hm hm0 hl
      rcases h.2 with ⟨_, h⟩ | h
      · exact ((okR.2 ⟨rfl, hk⟩ : Ok E ctx (.rule .opComp) [] pre _ _ _ _ []).det h).2.1
      · exact ((okR.2 ⟨rfl, hk⟩ : Ok E ctx (.rule .opComp) [] pre _ _ _ _ []).clash h.1).elim
  subst this
  exact ⟨⟨o, hm⟩, hl⟩

/-! ### Clauses -/

/-- The errors of a clause rule, where it is expected, on texts up to a length. -/
def FlawTo (E : Env) (ctx : Ctx) (L : Level) (N : Nat) : Prop := ∀ ⦃fr pre s p k⦄, s.length ≤ N → Opens E L pre →
  Er E ctx (.rule (ruleOf L)) fr pre s p k →
  ∃ q t, pre ++ s = q ++ t ∧ Opens E .cmp q ∧ Flawed E (WrongClause E q) q t p k

theorem flaw_noArgs (h : Er E ctx (.action .onComparison10 (.seq [.label .field (.rule .Field), .rule .ws,
      .lit [':'] false "\":\"".toList, .rule .ws, .label .operation (.rule .opNoArgs)])) [] pre s p k) :
    Flawed E (WrongClause E pre) pre s p k := by
  replace h := er_seq (er_act (by simp) h)
  rcases h with h | ⟨_, p1, _, _, h1, h | ⟨_, w1, _, _, h2, h | ⟨_, _, _, _, h3, h | ⟨_, w2, _, g, h4, h | ⟨_, _, _, _, -, h⟩⟩⟩⟩⟩
  · exact flaw_field (er_label h)
  · exact (silent_er silent_ws h).elim
  · exact (er_lit h).elim
  · exact (silent_er silent_ws h).elim
  · exact (silent_er silent_opNoArgs (er_label h)).elim
  · exact h.elim

theorem flaw_compare (hg : Sane ctx) (hno : No E ctx (.action .onComparison10 (.seq [.label .field (.rule .Field), .rule .ws,
      .lit [':'] false "\":\"".toList, .rule .ws, .label .operation (.rule .opNoArgs)])) [] pre s)
    (h : Er E ctx (.action .onComparison19 (.seq [.label .field (.rule .Field), .rule .ws, .lit [':'] false "\":\"".toList, .rule .ws,
      .label .operation (.opt (.rule .opComp)), .rule .ws, .label .values (.rule .ValueList)])) [] pre s p k) :
    Flawed E (WrongClause E pre) pre s p k := by
  replace h := er_seq (er_act (by simp) h)
  rcases h with h | ⟨_, p1, _, _, h1, h | ⟨_, w1, _, _, h2, h | ⟨_, _, _, _, h3, h | ⟨_, w2, r, g, h4,
    h | ⟨_, o, _, _, h5, h | ⟨_, w3, _, _, h6, h | ⟨_, _, _, _, -, h⟩⟩⟩⟩⟩⟩⟩
  · exact flaw_field (er_label h)
  · exact (silent_er silent_ws h).elim
  · exact (er_lit h).elim
  · exact (silent_er silent_ws h).elim
  · exact (silent_er silent_opComp (er_opt (er_label h))).elim
  · exact (silent_er silent_ws h).elim
  · have hn : ∀ k x, NoArgOp k x → ¬ k <+: r := by
      rintro k x hk ⟨c, rfl⟩
      simp only [no_action, no_seq, NoS] at hno
      rcases hno with hno | ⟨_, _, _, _, g1, hno⟩
      · exact h1.clash hno
      obtain ⟨-, rfl, rfl, rfl⟩ := h1.det g1
      rcases hno with hno | ⟨_, _, _, _, g2, hno⟩
      · exact h2.clash hno
      obtain ⟨-, rfl, rfl, rfl⟩ := h2.det g2
      rcases hno with hno | ⟨_, _, _, _, g3, hno⟩
      · exact h3.clash hno
      obtain ⟨-, rfl, rfl, rfl⟩ := h3.det g3
      rcases hno with hno | ⟨_, _, _, _, g4, hno⟩
      · exact h4.clash hno
      obtain ⟨-, rfl, rfl, rfl⟩ := h4.det g4
      rcases hno with hno | ⟨_, _, _, _, -, hno⟩
      · exact (Ok.clash (ok_label.2 ⟨rfl, [], okR.2 ⟨rfl, opNoArgs_ok hk⟩⟩) hno)
      · exact hno
    obtain ⟨-, _, h1⟩ := ok_label.1 h1
    obtain ⟨-, h1⟩ := okR.1 h1
    obtain ⟨-, h2⟩ := okR.1 h2
    obtain ⟨-, rfl, rfl, -⟩ := ok_lit1.1 h3
    obtain ⟨-, h4⟩ := okR.1 h4
    obtain ⟨-, _, h5⟩ := ok_label.1 h5
    have e1 := h1.split
    have e2 := h2.split
    have e4 := h4.split
    have e5 := h5.1
    subst e5 e4 e2 e1
    obtain ⟨-, h6⟩ := okR.1 h6
    have e6 := h6.split
    subst e6
    obtain ⟨xs, -, hp⟩ := field_of h1
    obtain ⟨⟨op, ho⟩, hl⟩ := opt_longest h5
    have hf := flaw_values hg (er_label h)
    have hw3 : o = [] → w3 = [] := by
      rintro rfl
      have hh := (rule_ws.1 h4).2.2.2
      cases w3 with
      | nil => rfl
      | cons c t => exact absurd ((rule_ws.1 h6).2.2.1 c (by simp)) (hh c _ rfl)
    rw [show pre ++ p1 ++ w1 ++ [':'] ++ w2 ++ o ++ w3 = pre ++ (p1 ++ (w1 ++ ':' :: (w2 ++ (o ++ w3)))) by simp] at hf
    have := hf.after (W' := WrongClause E pre) fun v msg n hw => ?_
    · simpa using this
    · have := WrongClause.values (q := pre) hp (rule_ws.1 h2).2.2.1 (rule_ws.1 h4).2.2.1 ho (rule_ws.1 h6).2.2.1 hw3 hn hl hw
      simpa using this
  · exact h.elim

theorem cmp_flaw {N : Nat} (hg : Sane ctx) (ih : ∀ M < N, FlawTo E ctx .or M) : FlawTo E ctx .cmp N := by
  intro fr pre s p k hN ho h
  replace h : Er E ctx (.rule .Comparison) fr pre s p k := h
  replace h := er_rule h
  rw [grammar_comparison] at h
  replace h := er_choice h
  rcases h with h | ⟨-, h | ⟨hno, h | ⟨-, h⟩⟩⟩
  · replace h := er_seq (er_act (by simp) h)
    rcases h with h | ⟨_, _, _, _, h0, h | ⟨_, w, _, _, h1, h | ⟨_, t, _, _, -, h | ⟨_, r, _, _, -, h | ⟨_, _, _, _, -, h⟩⟩⟩⟩⟩
    · exact (er_lit h).elim
    · exact (silent_er silent_ws h).elim
    · obtain ⟨rfl, rfl, rfl, -⟩ := ok_lit1.1 h0
      have h1 := (okR.1 h1).2
      have e := h1.split
      subst e
      have hop := Opens.group ho (rule_ws.1 h1).2.2.1
      obtain ⟨q, t, e, hq, hf⟩ := ih (N - 1) (by simp at hN; omega) (by simp at hN; omega) (by simpa using hop) (er_label h)
      exact ⟨q, t, by rw [← e]; simp, hq, hf⟩
    · exact (silent_er silent_ws h).elim
    · exact (er_lit h).elim
    · exact h.elim
  · exact ⟨pre, s, rfl, ho, flaw_noArgs h⟩
  · exact ⟨pre, s, rfl, ho, flaw_compare hg hno h⟩
  · exact h.elim

theorem not_flaw {N : Nat} (hc : FlawTo E ctx .cmp N) : FlawTo E ctx .not N := by
  intro fr pre s p k hN ho h
  replace h : Er E ctx (.rule .NotClause) fr pre s p k := h
  replace h := er_rule h
  rw [grammar_not] at h
  replace h := er_choice h
  rcases h with h | ⟨-, h | ⟨-, h⟩⟩
  · replace h := er_seq (er_act (by simp) h)
    rcases h with h | ⟨_, t, _, _, h0, h | ⟨_, w, _, _, h1, h⟩⟩
    · exact (silent_er silent_not h).elim
    · have h0 := (okR.1 h0).2
      have e := h0.split
      subst e
      obtain ⟨q, u, e, hq, hf⟩ := hc (by simp at hN; omega) (.not ho (logicalNOT_of h0)) (er_label h)
      exact ⟨q, u, by rw [← e]; simp, hq, hf⟩
    · exact h.elim
  · exact hc hN (.notCmp ho) h
  · exact h.elim

theorem bin_flaw {N : Nat} {L M : Level} {act : Act} {x : Rule} {kw : Rule} {f1 f2 : PLabel} {wd : Str} (hx : ruleOf L = x)
    (hg : grammar x = .choice [.action act (.seq [.label f1 (.rule (ruleOf M)), .rule .space,
      .rule kw, .rule .space, .label f2 (.rule x)]), .rule (ruleOf M)])
    (ha : act ∈ [Act.onStart1, .onQuery1, .onOrClause2, .onAndClause2, .onNotClause2,
      .onComparison2, .onComparison10, .onComparison19])
    (hq : Silent E (.rule kw)) (hk : ∀ {ctx pre s v a b}, RuleOk E ctx kw pre s v a b → a = wd) (hwd : wd ≠ [])
    (hop : ∀ {q}, Opens E L q → Opens E M q)
    (hop' : ∀ {q a n w1 w2}, Opens E L q → Text E M q a n → Space w1 → Space w2 → Opens E L (q ++ (a ++ (w1 ++ (wd ++ w2)))))
    (ih : ∀ K < N, FlawTo E ctx L K) (hc : FlawTo E ctx M N) : FlawTo E ctx L N := by
  intro fr pre s p k hN ho h
  rw [hx] at h
  replace h := er_rule h
  rw [hg] at h
  replace h := er_choice h
  rcases h with h | ⟨-, h | ⟨-, h⟩⟩
  · replace h := er_seq (er_act ha h)
    rcases h with h | ⟨_, t, _, _, h0, h | ⟨_, w, _, _, h1, h | ⟨_, o, _, _, h2, h | ⟨_, w2, _, _, h3, h | ⟨_, _, _, _, -, h⟩⟩⟩⟩⟩
    · exact hc hN (hop ho) (er_label h)
    · exact (silent_er silent_space h).elim
    · exact (silent_er hq h).elim
    · exact (silent_er silent_space h).elim
    · obtain ⟨-, _, h0⟩ := ok_label.1 h0
      have h0 := (okR.1 h0).2
      have e0 := h0.split
      have h1 := (okR.1 h1).2
      have e1 := h1.split
      have e2 := (okR.1 h2).2.split
      have h3 := (okR.1 h3).2
      have e3 := h3.split
      subst e3
      subst e2
      subst e1
      subst e0
      have ho' := hk (okR.1 h2).2
      subst ho'
      have hl : o.length ≠ 0 := fun h => hwd (List.length_eq_zero_iff.1 h)
      obtain ⟨n, -, ht⟩ := clause_sound h0
      rw [← hx] at h
      have hop := hop' ho ht (rule_space.1 h1).2.2.1 (rule_space.1 h3).2.2.1
      obtain ⟨q, u, e, hq, hf⟩ := ih (N - 1) (by simp at hN; omega) (by simp at hN; omega) (by simpa using hop) (er_label h)
      exact ⟨q, u, by rw [← e]; simp, hq, hf⟩
    · exact h.elim
  · exact hc hN (hop ho) h
  · exact h.elim

theorem flaw_to (hg : Sane ctx) (N : Nat) : ∀ L, FlawTo E ctx L N := by
  induction N using Nat.strong_induction_on with
  | _ N ih =>
    have hc : FlawTo E ctx .cmp N := cmp_flaw hg fun M hM => ih M hM .or
    have hn := not_flaw hc
    have ha : FlawTo E ctx .and N := bin_flaw (x := .AndClause) (M := .not) (wd := "AND".toList) rfl grammar_and (by simp) silent_and
      (fun h => by rw [(logicalAND_iff.1 h).1]) (by decide) .andNot .and (fun M hM => ih M hM .and) hn
    have ho : FlawTo E ctx .or N := bin_flaw (x := .OrClause) (M := .and) (wd := "OR".toList) rfl grammar_or (by simp) silent_or
      (fun h => by rw [(logicalOR_iff.1 h).1]) (by decide) .orAnd .or (fun M hM => ih M hM .or) ha
    intro L
    cases L <;> assumption

/-- The first error recorded while a text is read is about a wrong clause where one is expected. -/
theorem flaw_start (hg : Sane ctx) (h : Er E ctx (.rule .Start) fr [] s p k) :
    ∃ q t, s = q ++ t ∧ Opens E .cmp q ∧ Flawed E (WrongClause E q) q t p k := by
  replace h := er_rule h
  rw [grammar_start] at h
  replace h := er_seq (er_act (by simp) h)
  rcases h with h | ⟨_, t, _, _, -, h | ⟨_, w, _, _, -, h⟩⟩
  · replace h := er_rule (er_label h)
    rw [grammar_query] at h
    replace h := er_seq (er_act (by simp) h)
    rcases h with h | ⟨_, t, _, _, h1, h | ⟨_, w, _, _, -, h | ⟨_, w, _, _, -, h⟩⟩⟩
    · exact (silent_er silent_ws h).elim
    · have h1 := (okR.1 h1).2
      have e := h1.split
      subst e
      exact flaw_to hg _ .or (Nat.le_refl _) (.start (rule_ws.1 h1).2.2.1) (er_label h)
    · exact (silent_er silent_ws h).elim
    · exact h.elim
  · exact (silent_er silent_eof h).elim
  · exact h.elim

/-- Every error of the grammar stage is about a wrong clause, or lists what was expected. -/
theorem parse_flaw (h : parse E (s.map .ok) = some (.error p k)) :
    (∃ q t, s = q ++ t ∧ Opens E .cmp q ∧ Flawed E (WrongClause E q) q t p k) ∨ ∃ x, k.kind = .noMatch x := by
  obtain ⟨l, r0, hb, -, hp⟩ := parse_big (E := E) (s.map .ok)
  rw [cur_init, encErr_cur, List.nil_append] at hp
  rw [cur_init] at hb
  rw [h] at hp
  simp only [Option.some.injEq] at hp
  unfold finish at hp
  split at hp
  · rename_i l' e' tl hl
    cases hp
    exact .inl (flaw_start Sane.nil (start_er hb hl))
  · cases hp
  · cases hp
    exact .inr ⟨_, rfl⟩
  · rename_i q c hl
    exact absurd (hb.shapes hl (wt_grammar _) rfl) id

end Aql
