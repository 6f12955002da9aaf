import Verif.Proofs.WrongClause
/-!
What is wrong about a clause is said wherever a clause is expected.
-/

namespace Aql

open Spec

variable {E : Env} {ctx : Ctx} {fr fr' : VFrame} {pre s a b : Str} {p : Loc} {k : RecErr}

/-- The first alternative of NotClause. -/
abbrev notAlt : PExpr := .action .onNotClause2 (.seq [.rule .logicalNOT, .label .cmp (.rule .Comparison)])

theorem notAlt_path {q : Str} {xs : List Str} {w1 r : Str} (hp : Path E q xs) (h1 : Ws w1) :
    No E ctx notAlt fr pre (q ++ (w1 ++ ':' :: r)) := by
  simp only [no_action, no_seq, NoS, noR, no_label]
  by_cases hN : ∃ w t, q ++ (w1 ++ ':' :: r) = "NOT".toList ++ w ++ t ∧ Space w
  · obtain ⟨w, t, he, hw⟩ := hN
    have hpN := path_NOT hp h1 he hw
    subst hpN
    rw [List.append_assoc] at he
    have he' := List.append_cancel_left he
    have hne : w1 ≠ [] := by
      rintro rfl
      obtain ⟨d, w, rfl⟩ := List.exists_cons_of_ne_nil hw.2
      simp only [List.nil_append, List.cons_append, List.cons.injEq] at he'
      have := hw.1 d (by simp)
      rw [← he'.1] at this
      revert this; decide
    obtain ⟨v, hv⟩ := logicalNOT_ok (E := E) (ctx := ctx) (pre := pre) (b := ':' :: r) (.word ⟨h1, hne⟩)
      (by rw [noHead_cons]; decide)
    refine .inr ⟨v, 'N' :: 'O' :: 'T' :: w1, ':' :: r, fr, okR.2 ⟨rfl, ?_⟩, .inl comparison_no_colon⟩
    simpa using hv
  · refine .inl (logicalNOT_no ?_ ?_)
    · intro w t he hw
      exact hN ⟨w, t, he, hw⟩
    · obtain ⟨c, t, rfl, hc⟩ := path_head hp
      rw [List.cons_append, noHead_cons]
      exact head_not hc (by decide) (by decide)

theorem notAlt_head {c : Char} (h1 : c ≠ 'N') (h2 : c ≠ '!') : No E ctx notAlt fr pre (c :: s) := by
  simp only [no_action, no_seq, NoS, noR, no_label]
  refine .inl (logicalNOT_no ?_ (by rw [noHead_cons]; exact h2))
  intro w t he
  exact absurd (List.cons.inj he).1 h1

theorem notAlt_dot {q : Str} {xs : List Str} (hp : Path E q xs) : No E ctx notAlt fr pre (q ++ '.' :: s) := by
  simp only [no_action, no_seq, NoS, noR, no_label]
  refine .inl (logicalNOT_no ?_ ?_)
  · intro w t he hw
    have hN : ∀ c ∈ "NOT".toList, FieldChar E c := by
      intro c hc
      have : c = 'N' ∨ c = 'O' ∨ c = 'T' := by simpa using hc
      rcases this with rfl | rfl | rfl <;> (rw [fieldChar_ascii (by decide)]; decide)
    obtain ⟨d, w, rfl⟩ := List.exists_cons_of_ne_nil hw.2
    have hd : IsWs d := hw.1 d (by simp)
    have hd' : NoHead (FieldChar E) (d :: w ++ t) := noHead_cons.2 (not_fieldChar_ws hd)
    have hdot : ∀ r : Str, NoHead (FieldChar E) ('.' :: r) := fun r => noHead_cons.2 (not_fieldChar (by decide) (by decide))
    have key : ∀ {u x z}, Piece E u x → u ++ '.' :: z = "NOT".toList ++ (d :: w ++ t) → False := by
      intro u x z hu he
      have : u = "NOT".toList := by
        cases hu with
        | quoted => simp at he
        | bare h1 h2 => exact span_unique he h2 hN (hdot _) hd'
        | star => simp at he
      subst this
      have h'' := List.append_cancel_left he
      simp only [List.cons_append, List.cons.injEq] at h''
      rw [← h''.1] at hd
      exact absurd hd (by decide)
    rw [List.append_assoc] at he
    cases hp with
    | one hu => exact key hu he
    | @cons u x s' xs hu hs =>
      rw [List.append_assoc, List.cons_append] at he
      exact key hu he
  · obtain ⟨c, t, rfl, hc⟩ := path_head hp
    rw [List.cons_append, noHead_cons]
    exact head_not hc (by decide) (by decide)

theorem wrongClause_not {v msg : Str} {n : Nat} {q : Str} (h : WrongClause E q s v msg n) : No E ctx notAlt fr pre s := by
  cases h with
  | values hp h1 => exact notAlt_path hp h1
  | name hp h =>
    obtain ⟨t, rfl⟩ := wrongString_head h
    rcases hp with rfl | ⟨r, xs, hr, rfl⟩
    · exact notAlt_head (by decide) (by decide)
    · rw [List.append_assoc]; exact notAlt_dot hr

theorem path_notWs {xs : List Str} (h : Path E a xs) : NoHead IsWs (a ++ b) := by
  obtain ⟨c, t, rfl, hc⟩ := path_head h
  rw [List.cons_append, noHead_cons]
  rintro (rfl | rfl | rfl | rfl) <;> exact head_not hc (by decide) (by decide) rfl

theorem wrongClause_head {v msg : Str} {n : Nat} {q : Str} (h : WrongClause E q s v msg n) : NoHead IsWs s := by
  cases h with
  | values hp h1 => exact path_notWs hp
  | name hp h =>
    obtain ⟨t, rfl⟩ := wrongString_head h
    rcases hp with rfl | ⟨r, xs, hr, rfl⟩
    · rw [List.nil_append, noHead_cons]; decide
    · rw [List.append_assoc]; exact path_notWs hr

theorem grammar_start : grammar .Start = .action .onStart1 (.seq [.label .query (.rule .Query), .rule .EOF]) := rfl

theorem grammar_query : grammar .Query = .action .onQuery1 (.seq [.rule .ws, .label .clause (.rule .OrClause), .rule .ws]) := rfl

/-- An error of an expression of a level is an error of the whole, where such an expression is expected. -/
theorem opens_start {L : Level} {q : Str} (h : Opens E L q) : ∀ {s}, NoHead IsWs s →
    (L = .cmp → ∀ ctx fr, No E ctx notAlt fr q s) →
    (∀ ctx fr, Sane ctx → Wh E ctx (.rule (ruleOf L)) fr q s p k) →
    ∀ ctx fr, Sane ctx → Wh E ctx (grammar .Start) fr [] (q ++ s) p k := by
  induction h with
  | @start w hw =>
    intro s hs _ hk ctx fr hg
    rw [grammar_start]
    refine wh_action (wh_seq (.inl (wh_label (wh_rule ?_))))
    rw [grammar_query]
    exact wh_action (wh_seq (.inr ⟨_, w, s, _, okR.2 ⟨rfl, ws_ok hw hs⟩, .inl (wh_label (hk ctx _ hg))⟩))
  | @group q w hq hw ih =>
    intro s hs _ hk
    rw [List.append_assoc, List.cons_append]
    refine ih (by rw [noHead_cons]; decide) (fun _ ctx fr => notAlt_head (by decide) (by decide)) fun ctx fr hg => wh_rule ?_
    show Wh E ctx (grammar .Comparison) [] _ _ _ _
    rw [grammar_comparison]
    refine wh_choice (.inl (wh_action (wh_seq (.inr ⟨_, ['('], w ++ s, _, ok_lit1.2 ⟨rfl, rfl, rfl, rfl⟩, .inr ⟨_, w, s, _,
      okR.2 ⟨rfl, ws_ok hw hs⟩, .inl (wh_label ?_)⟩⟩))))
    have := hk ctx [] hg
    simpa [ruleOf] using this
  | @or q a n w1 w2 hq ha h1 h2 ih =>
    intro s hs _ hk
    have e : a ++ (w1 ++ ("OR".toList ++ w2)) ++ s = a ++ (w1 ++ ("OR".toList ++ (w2 ++ s))) := by simp
    rw [List.append_assoc, e]
    refine ih (text_notWs ha) (fun h => by cases h) fun ctx fr hg => wh_rule ?_
    show Wh E ctx (grammar .OrClause) [] _ _ _ _
    rw [grammar_or]
    have k1 := clause_complete (ctx := ctx) ha (b := w1 ++ ("OR".toList ++ (w2 ++ s))) ⟨w1, _, rfl, h1.1, .inr (.inr ⟨h1.2, ⟨_, rfl⟩⟩)⟩
    refine wh_choice (.inl (wh_action (wh_seq (.inr ⟨_, a, _, _, ok_label.2 ⟨rfl, [], okR.2 ⟨rfl, k1⟩⟩, .inr ⟨_, w1, _, _,
      okR.2 ⟨rfl, rule_space.2 ⟨rfl, rfl, h1, noHead_cons.2 (by decide)⟩⟩, .inr ⟨_, _, w2 ++ s, _, okR.2 ⟨rfl, logicalOR_iff.2 ⟨rfl, rfl, rfl⟩⟩,
      .inr ⟨_, w2, s, _, okR.2 ⟨rfl, rule_space.2 ⟨rfl, rfl, h2, hs⟩⟩, .inl (wh_label ?_)⟩⟩⟩⟩))))
    have := hk ctx [] hg
    simpa [ruleOf] using this
  | orAnd hq ih =>
    intro s hs _ hk
    refine ih hs (fun h => by cases h) fun ctx fr hg => wh_rule ?_
    show Wh E ctx (grammar .OrClause) [] _ _ _ _
    rw [grammar_or]
    exact wh_choice (.inl (wh_action (wh_seq (.inl (wh_label (hk ctx _ hg))))))
  | @and q a n w1 w2 hq ha h1 h2 ih =>
    intro s hs _ hk
    have e : a ++ (w1 ++ ("AND".toList ++ w2)) ++ s = a ++ (w1 ++ ("AND".toList ++ (w2 ++ s))) := by simp
    rw [List.append_assoc, e]
    refine ih (text_notWs ha) (fun h => by cases h) fun ctx fr hg => wh_rule ?_
    show Wh E ctx (grammar .AndClause) [] _ _ _ _
    rw [grammar_and]
    have k1 := clause_complete (ctx := ctx) ha (b := w1 ++ ("AND".toList ++ (w2 ++ s))) ⟨w1, _, rfl, h1.1, .inr (.inr ⟨h1.2, .inl ⟨_, rfl⟩⟩)⟩
    refine wh_choice (.inl (wh_action (wh_seq (.inr ⟨_, a, _, _, ok_label.2 ⟨rfl, [], okR.2 ⟨rfl, k1⟩⟩, .inr ⟨_, w1, _, _,
      okR.2 ⟨rfl, rule_space.2 ⟨rfl, rfl, h1, noHead_cons.2 (by decide)⟩⟩, .inr ⟨_, _, w2 ++ s, _, okR.2 ⟨rfl, logicalAND_iff.2 ⟨rfl, rfl, rfl⟩⟩,
      .inr ⟨_, w2, s, _, okR.2 ⟨rfl, rule_space.2 ⟨rfl, rfl, h2, hs⟩⟩, .inl (wh_label ?_)⟩⟩⟩⟩))))
    have := hk ctx [] hg
    simpa [ruleOf] using this
  | andNot hq ih =>
    intro s hs _ hk
    refine ih hs (fun h => by cases h) fun ctx fr hg => wh_rule ?_
    show Wh E ctx (grammar .AndClause) [] _ _ _ _
    rw [grammar_and]
    exact wh_choice (.inl (wh_action (wh_seq (.inl (wh_label (hk ctx _ hg))))))
  | @not q w hq hw ih =>
    intro s hs _ hk
    rw [List.append_assoc]
    have hws : NoHead IsWs (w ++ s) := by cases hw <;> exact noHead_cons.2 (by decide)
    refine ih hws (fun h => by cases h) fun ctx fr hg => wh_rule ?_
    show Wh E ctx (grammar .NotClause) [] _ _ _ _
    rw [grammar_not]
    obtain ⟨v, hv⟩ := logicalNOT_ok (E := E) (ctx := ctx) (pre := q) hw hs
    exact wh_choice (.inl (wh_action (wh_seq (.inr ⟨v, w, s, _, okR.2 ⟨rfl, hv⟩, .inl (wh_label (hk ctx _ hg))⟩))))
  | @notCmp q hq ih =>
    intro s hs hn hk
    refine ih hs (fun h => by cases h) fun ctx fr hg => wh_rule ?_
    show Wh E ctx (grammar .NotClause) [] _ _ _ _
    rw [grammar_not]
    exact wh_choice (.inr ⟨hn rfl ctx _, .inl (hk ctx _ hg)⟩)

/-- The outcome of the whole. -/
theorem parse_wrong {q v msg : Str} {n : Nat} (hq : Opens E .cmp q) (h : WrongClause E q s v msg n) :
    ∃ r j, s = v ++ r ∧ j.kind.text E = msg ∧ j.toklen.getD 1 = n ∧
      parse E ((q ++ s).map .ok) = some (.error (locAt (q ++ v) r) j) := by
  obtain ⟨r, j, e, hm, hn, hk⟩ := says_clause h
  refine ⟨r, j, e, hm, hn, ?_⟩
  have hw := opens_start hq (wrongClause_head h) (fun _ ctx fr => wrongClause_not h) hk
  obtain ⟨l, r0, hb, -, hp⟩ := parse_big (E := E) ((q ++ s).map .ok)
  rw [cur_init, encErr_cur, List.nil_append] at hp
  rw [cur_init] at hb
  have := hw _ _ Sane.nil l r0 hb
  rw [hp]
  obtain ⟨t, ht⟩ : ∃ t, errorsOf l = (locAt (q ++ v) r, j) :: t := by
    cases he : errorsOf l with
    | nil => rw [he] at this; cases this
    | cons x t => rw [he] at this; cases this; exact ⟨t, rfl⟩
  unfold finish
  rw [ht]

end Aql
