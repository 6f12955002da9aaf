import Verif.Proofs.CostBound
import Verif.Proofs.Deepest
/-!
In a text without quotes and slashes, what a clause reads has its parentheses in pairs, whatever becomes of
the rest of the text.
-/

namespace Aql

open Spec

variable {E : Env} {ctx : Ctx} {fr fr' : VFrame} {c c' : Cursor} {v : PV} {l : List Ev}

/-- No quotes and no slashes ahead. -/
def PlainAhead (c : Cursor) : Prop := ∀ s ∈ c.rest, s.rune ≠ '"' ∧ s.rune ≠ '/'

theorem PlainAhead.adv {t : List Sym} (h : PlainAhead c) (ha : Adv c t c') : PlainAhead c' := by
  intro s hs
  exact h s (by rw [ha.rest]; simp [hs])

/-- No parentheses. -/
def NoParens (t : List Sym) : Prop := ∀ s ∈ t, s.rune ≠ '(' ∧ s.rune ≠ ')'

/-- Rules that read no parentheses in a text without quotes and slashes. -/
def rbare : Rule → Bool
  | .Start | .Query | .OrClause | .AndClause | .NotClause | .Comparison | .Value | .ValueList
  | .RegexChar | .RegexEscape | .EndingQuote | .EndingSlash => false
  | _ => true

mutual
/-- Expressions that read no parentheses in such a text. -/
def bareE : PExpr → Bool
  | .action _ e => bareE e
  | .seq es => bares es
  | .choice es => bares es
  | .label _ e => bareE e
  | .rule r => rbare r
  | .lit s _ _ => !s.contains '(' && !s.contains ')'
  | .cls cs rs _ inv _ => !inv && !cs.contains '(' && !cs.contains ')' &&
      !rs.any (fun p => p.1 ≤ '(' && '(' ≤ p.2) && !rs.any (fun p => p.1 ≤ ')' && ')' ≤ p.2)
  | .any => false
  | .not _ => true
  | .star e => bareE e
  | .plus e => bareE e
  | .opt e => bareE e
  | .recover _ _ _ => false
  | .throw _ => false
  | .state _ => true
def bares : List PExpr → Bool
  | [] => true
  | e :: es => bareE e && bares es
end

def Job.bare : Job → Bool
  | .expr e _ => bareE e
  | .seq _ es _ _ => bares es
  | .choice _ es => bares es
  | .rep _ e _ _ => bareE e
  | .throw .. => false

theorem grammar_bare (r : Rule) (h : rbare r = true) : r = .QuotedValue ∨ r = .RegexValue ∨ bareE (grammar r) = true := by
  cases r <;> first | exact .inl rfl | exact .inr (.inl rfl) | exact absurd h (by decide) | exact .inr (.inr (by decide))

theorem litLoop_bare {ic : Bool} {s : Str} (hs : s.contains '(' = false) (hs' : s.contains ')' = false) :
    ∀ {c c' : Cursor} {l : List Ev}, litLoop E ic s c = (l, some c') → ∃ t, Adv c t c' ∧ NoParens t := by
  induction s with
  | nil => intro c c' l h; cases h; exact ⟨[], .refl _, by intro s hs; cases hs⟩
  | cons w ws ih =>
    intro c c' l h
    simp only [List.contains_cons, Bool.or_eq_false_iff, beq_eq_false_iff_ne] at hs hs'
    unfold litLoop at h
    split at h
    · cases h
    · rename_i x u hr
      dsimp only at h
      by_cases hw : (if ic = true then goLower E x.rune else x.rune) = w
      · rw [if_pos hw] at h
        rcases h2 : litLoop E ic ws c.next with ⟨l2, o2⟩
        rw [h2] at h
        cases h
        obtain ⟨t, ht, hb⟩ := ih hs.2 hs'.2 h2
        refine ⟨x :: t, .step hr ht, ?_⟩
        intro s hm
        rcases List.mem_cons.1 hm with rfl | hm
        · constructor <;> intro he <;> rw [he] at hw
          · refine hs.1 ?_
            rw [← hw]
            split
            · rw [goLower_ascii (by decide)]; decide
            · rfl
          · refine hs'.1 ?_
            rw [← hw]
            split
            · rw [goLower_ascii (by decide)]; decide
            · rfl
        · exact hb s hm
      · rw [if_neg hw] at h
        cases h

theorem dead_seq {st : Cursor} {x : Char} {w : Str} {es : List PExpr} {acc : List PV}
    (h : Big E ctx (.seq st (.lit [x] false w :: es) acc fr) c l (.ok v c' fr'))
    (hx : ∀ s ∈ c.rest, s.rune ≠ x) : False := by
  cases h with
  | seq_cons h1 _ =>
    cases h1 with
    | lit_ok h =>
      obtain ⟨t, ht, hm⟩ := litLoop_runes h
      cases ht with
      | refl => simp at hm
      | step hr _ =>
        simp only [List.map_cons, List.cons.injEq] at hm
        exact hx _ (by rw [hr]; simp) hm.1

theorem dead_literal {y : FailLabel} {x : Char} {w : Str} {a : Act} {es : List PExpr} {g : PExpr}
    (h : Big E ctx (.expr (.recover y (.action a (.seq (.lit [x] false w :: es))) g) fr) c l (.ok v c' fr'))
    (hx : ∀ s ∈ c.rest, s.rune ≠ x) : False := by
  cases h with
  | recover h =>
    cases h with
    | action_ok h => cases h with | seq h => exact dead_seq h hx
    | action_err h => cases h with | seq h => exact dead_seq h hx
    | action_stop h hs => exact hs

theorem big_bare {j : Job} {r : Res} (h : Big E ctx j c l r) (hj : j.bare = true) (hp : PlainAhead c) :
    ∀ v c' fr', r = .ok v c' fr' → ∃ t, Adv c t c' ∧ NoParens t := by
  have none : ∀ c : Cursor, ∃ t, Adv c t c ∧ NoParens t := fun c => ⟨[], .refl _, by intro s hs; cases hs⟩
  induction h with
  | action_ok _ _ ih => rintro _ _ _ ⟨⟩; exact ih hj hp _ _ _ rfl
  | action_err _ _ ih => rintro _ _ _ ⟨⟩; exact ih hj hp _ _ _ rfl
  | action_stop _ hs ih => rintro _ _ _ rfl; exact hs.elim
  | seq _ ih => exact ih hj hp
  | seq_nil => rintro _ _ _ ⟨⟩; exact none _
  | seq_cons _ _ ih1 ih2 =>
    rintro _ _ _ rfl
    simp only [Job.bare, bares, Bool.and_eq_true] at hj
    obtain ⟨t, ht, hb⟩ := ih1 hj.1 hp _ _ _ rfl
    obtain ⟨u, hu, hb'⟩ := ih2 hj.2 (hp.adv ht) _ _ _ rfl
    refine ⟨t ++ u, ht.trans hu, fun s hs => ?_⟩
    rcases List.mem_append.1 hs with hs | hs
    · exact hb s hs
    · exact hb' s hs
  | choice _ ih => exact ih hj hp
  | choice_ok _ ih =>
    rintro _ _ _ ⟨⟩
    simp only [Job.bare, bares, Bool.and_eq_true] at hj
    exact ih hj.1 hp _ _ _ rfl
  | choice_next h1 _ ih1 ih2 =>
    have hb := h1.fail_back
    subst hb
    simp only [Job.bare, bares, Bool.and_eq_true] at hj
    exact ih2 hj.2 hp
  | label_ok _ ih => rintro _ _ _ ⟨⟩; exact ih hj hp _ _ _ rfl
  | label_stop _ hs ih => rintro _ _ _ rfl; exact hs.elim
  | rule_ok h ih =>
    rintro _ _ _ ⟨⟩
    rcases grammar_bare _ hj with rfl | rfl | hb
    · exact (dead_literal h fun s hs => (hp s hs).1).elim
    · exact (dead_literal h fun s hs => (hp s hs).2).elim
    · exact ih hb hp _ _ _ rfl
  | rule_stop _ hs ih => rintro _ _ _ rfl; exact hs.elim
  | lit_ok h =>
    rintro _ _ _ ⟨⟩
    simp only [Job.bare, bareE, Bool.and_eq_true, Bool.not_eq_true'] at hj
    exact litLoop_bare hj.1 hj.2 h
  | @cls_ok ctx chars ranges ic inv w fr c s t hr hm =>
    rintro _ _ _ ⟨⟩
    refine ⟨[s], .one hr, ?_⟩
    intro x hx
    rw [List.mem_singleton] at hx
    subst hx
    simp only [Job.bare, bareE, Bool.and_eq_true, Bool.not_eq_true'] at hj
    obtain ⟨⟨⟨⟨hi, h1⟩, h2⟩, h3⟩, h4⟩ := hj
    subst hi
    unfold clsMatch at hm
    have key : ∀ y : Char, y.toNat < 128 → asciiLower y = y → x.rune = y →
        (if ic = true then goLower E x.rune else x.rune) = y := by
      intro y hy hl he
      rw [he]
      split
      · rw [goLower_ascii hy, hl]
      · rfl
    constructor <;> intro he
    · have := key '(' (by decide) (by decide) he
      simp only [this, h1, h3] at hm
      cases hm
    · have := key ')' (by decide) (by decide) he
      simp only [this, h2, h4] at hm
      cases hm
  | any_ok => cases hj
  | not_ok => rintro _ _ _ ⟨⟩; exact none _
  | star _ ih => exact ih hj hp
  | plus _ ih => exact ih hj hp
  | rep_next _ _ ih1 ih2 =>
    rintro _ _ _ rfl
    obtain ⟨t, ht, hb⟩ := ih1 hj hp _ _ _ rfl
    obtain ⟨u, hu, hb'⟩ := ih2 hj (hp.adv ht) _ _ _ rfl
    refine ⟨t ++ u, ht.trans hu, fun s hs => ?_⟩
    rcases List.mem_append.1 hs with hs | hs
    · exact hb s hs
    · exact hb' s hs
  | rep_stop h1 _ ih =>
    rintro _ _ _ ⟨⟩
    have hb := h1.fail_back
    subst hb
    exact none _
  | opt_ok _ ih => rintro _ _ _ ⟨⟩; exact ih hj hp _ _ _ rfl
  | opt_none h1 ih =>
    rintro _ _ _ ⟨⟩
    have hb := h1.fail_back
    subst hb
    exact none _
  | recover => cases hj
  | throw => cases hj
  | throw_nil => cases hj
  | throw_skip => cases hj
  | throw_ok => cases hj
  | throw_next => cases hj
  | state => rintro _ _ _ ⟨⟩; exact none _
  | _ => intros; contradiction

/-! ### Levels -/

/-- The level of the scan at `c'` is not below the one at `c`. -/
def Even (c c' : Cursor) : Prop :=
  ∀ l, deepest l (c'.rest.map Sym.rune) ≤ deepest l (c.rest.map Sym.rune)

theorem Even.refl (c : Cursor) : Even c c := fun _ => Nat.le_refl _

theorem Even.trans {c1 : Cursor} (h : Even c c1) (h' : Even c1 c') : Even c c' := fun l => (h' l).trans (h l)

theorem NoParens.runes {t : List Sym} (h : NoParens t) : ParenFree (t.map Sym.rune) := by
  intro x hx
  obtain ⟨s, hs, rfl⟩ := List.mem_map.1 hx
  exact h s hs

theorem NoParens.deepest {t : List Sym} (h : NoParens t) (ha : Adv c t c') (l : Nat) :
    Spec.deepest l (c.rest.map Sym.rune) = Spec.deepest l (c'.rest.map Sym.rune) := by
  rw [ha.rest, List.map_append, deepest_pfree h.runes]

theorem NoParens.even {t : List Sym} (h : NoParens t) (ha : Adv c t c') : Even c c' := fun l => Nat.le_of_eq (h.deepest ha l).symm

/-- A pair of parentheses around something even. -/
theorem Even.parens {c1 c2 c3 : Cursor} {w1 w2 : Str} {n1 n2 : Nat} (h1 : Run E (.lit ['('] false w1) c n1 (some c1))
    (h2 : Even c1 c2) (h3 : Run E (.lit [')'] false w2) c2 n2 (some c3)) : Even c c3 := by
  intro l
  obtain ⟨t, ht, hm⟩ := run_lit h1
  obtain ⟨u, hu, hm'⟩ := run_lit h3
  have e1 := ht.rest
  have e2 := hu.rest
  have g := h2 (l + 1)
  rw [e2, List.map_append, hm'] at g
  rw [e1, List.map_append, hm]
  simp only [List.cons_append, List.nil_append] at g ⊢
  rw [deepest_close] at g
  rw [deepest_open]
  omega

/-! ### Comparisons -/

theorem bare_even {e : PExpr} (h : Big E ctx (.expr e fr) c l (.ok v c' fr')) (hp : PlainAhead c)
    (he : bareE e = true) : Even c c' ∧ PlainAhead c' := by
  obtain ⟨t, ht, hb⟩ := big_bare h he hp _ _ _ rfl
  exact ⟨hb.even ht, hp.adv ht⟩

theorem run_even {e : PExpr} {k : Nat} (h : Run E e c k (some c')) (hp : PlainAhead c) (he : bareE e = true) :
    Even c c' := by
  obtain ⟨fr, l, r, h, -, hr⟩ := h
  cases r with
  | ok v c'' fr' => cases hr; exact (bare_even h hp he).1
  | _ => cases hr

theorem run_plain {e : PExpr} {k : Nat} (h : Run E e c k (some c')) (hp : PlainAhead c) : PlainAhead c' := by
  obtain ⟨t, ht⟩ := run_adv h
  exact hp.adv ht

/-- Conversions of the value nil end in a panic. -/
theorem asVal_ne {x : Val} (h : v.asVal = .ok x) : v ≠ .nil := by
  rintro rfl
  cases h

/-- The values of a comparison contain no parentheses. -/
theorem value_even (h : Big E ctx (.expr (.rule .Value) fr) c l (.ok v c' fr')) (hp : PlainAhead c) (hv : v ≠ .nil) :
    Even c c' := by
  cases h with
  | rule_ok h =>
    cases h with
    | choice h =>
      cases h with
      | choice_ok h => exact (bare_even h hp (by decide)).1
      | choice_next h1 h =>
        exfalso
        cases h with
        | choice_ok h =>
          have key : ∀ fr text loc o, runAct E .onValue8 fr text loc = .ok (v, o) → False := by
            intro fr text loc o hr
            simp only [runAct] at hr
            split at hr
            · cases hr
            · split at hr <;> cases hr <;> exact hv rfl
          cases h with
          | action_ok h hr => exact key _ _ _ _ hr
          | action_err h hr => exact key _ _ _ _ hr
          | action_stop h hs => exact hs
        | choice_next h1 h => cases h
  | rule_stop h hs => exact hs.elim

/-- The values after the first one, provided that the action can take them out of the results. -/
theorem rest_even {j : Job} {r : Res} (h : Big E ctx j c l r) (hp : PlainAhead c) : ∀ e fr one acc v c' fr',
    j = .rep fr e one acc → r = .ok v c' fr' → e = .seq [.rule .ws, .lit [','] false "\",\"".toList, .rule .ws,
      .rule .Value] → PlainAhead c' ∧ ∃ vs, v = .list (acc ++ vs) ∧ ∀ more, mapPieces 3 PV.asVal vs = .ok more → Even c c' := by
  induction h with
  | rep_next h1 _ ih1 ih2 =>
    rintro e fr one acc v c' fr' ⟨⟩ hr he
    subst he
    clear ih1
    cases h1 with
    | seq h1 =>
    cases h1 with
    | seq_cons g1 h1 =>
    cases h1 with
    | seq_cons g2 h1 =>
    cases h1 with
    | seq_cons g3 h1 =>
    cases h1 with
    | seq_cons g4 h1 =>
    cases h1 with
    | seq_nil =>
    obtain ⟨e1, p1⟩ := bare_even g1 hp (by decide)
    obtain ⟨e2, p2⟩ := bare_even g2 p1 (by decide)
    obtain ⟨e3, p3⟩ := bare_even g3 p2 (by decide)
    obtain ⟨t, ht⟩ := g4.ok_adv
    obtain ⟨p, vs, hv, hm⟩ := ih2 (p3.adv ht) _ _ _ _ _ _ _ rfl hr rfl
    refine ⟨p, _ :: vs, by rw [hv, List.append_assoc]; rfl, fun more hmore => ?_⟩
    simp only [mapPieces, PV.toAny, PV.index, bind, Except.bind, pure, Except.pure, List.nil_append,
      List.cons_append, List.getElem?_cons_succ, List.getElem?_cons_zero] at hmore
    split at hmore
    · cases hmore
    · rename_i x hx
      split at hmore
      · cases hmore
      · rename_i ms hms
        exact e1.trans (e2.trans (e3.trans ((value_even g4 p3 (asVal_ne hx)).trans (hm _ hms))))
  | rep_stop h1 hn _ =>
    rintro e fr one acc v c' fr' ⟨⟩ ⟨⟩ he
    have hb := h1.fail_back
    subst hb
    exact ⟨hp, [], by simp, fun _ _ => .refl _⟩
  | _ => intro e fr one acc v c' fr' hj hr; first | (cases hj; done) | cases hr

theorem values_even (h : Big E ⟨false, []⟩ (.expr (.rule .ValueList) fr) c l (.ok v c' fr')) (hp : PlainAhead c)
    (hv : v ≠ .nil) : Even c c' := by
  have list : ∀ {fr l v0 c' fr' o}, Big E ⟨false, []⟩ (.expr (.seq [.lit ['('] false "\"(\"".toList,
          .rule .ws,
          .label .first (.rule .Value),
          .label .rest (.star (.seq [.rule .ws,
                .lit [','] false "\",\"".toList,
                .rule .ws,
                .rule .Value])),
          .rule .ws,
          .lit [')'] false "\")\"".toList]) fr) c l (.ok v0 c' fr') →
      runAct E .onValueList2 fr' (textOf c c') c.loc = .ok (v, o) → Even c c' := by
    intro fr l v0 c' fr' o h hr
    cases h with
    | seq h =>
    cases h with
    | seq_cons g1 h =>
    cases h with
    | seq_cons g2 h =>
    cases h with
    | seq_cons g3 h =>
    cases h with
    | seq_cons g4 h =>
    cases h with
    | seq_cons g5 h =>
    cases h with
    | seq_cons g6 h =>
    cases h with
    | seq_nil =>
    obtain ⟨t1, a1⟩ := g1.ok_adv
    have p1 := hp.adv a1
    obtain ⟨e2, p2⟩ := bare_even g2 p1 (by decide)
    cases g3 with
    | label_stop _ hs => exact hs.elim
    | label_ok g3 =>
    obtain ⟨t3, a3⟩ := g3.ok_adv
    have p3 := p2.adv a3
    cases g4 with
    | label_stop _ hs => exact hs.elim
    | label_ok g4 =>
    cases g4 with
    | star g4 =>
    obtain ⟨p4, vs, rfl, hm⟩ := rest_even g4 p3 _ _ _ _ _ _ _ rfl rfl rfl
    obtain ⟨e5, p5⟩ := bare_even g5 p4 (by decide)
    have e1 := Even.parens (c := c) ⟨_, _, _, g1, rfl, rfl⟩ (c2 := _) (c3 := c') ?_ ⟨_, _, _, g6, rfl, rfl⟩
    · exact e1
    cases g5 with
    | rule_stop _ hs => exact hs.elim
    | rule_ok g5 =>
    cases g6 with
    | lit_ok g6 =>
    have hr' : (do
        let first ← PV.asVal _
        let rest ← PV.toAny (.list ([] ++ vs))
        if rest.length = 0 then return (.nil, some ⟨.singleParen, none⟩)
        let more ← mapPieces 3 PV.asVal rest
        return (.vals (first :: more), none)) = Except.ok (v, o) := hr
    clear hr; rename' hr' => hr
    simp only [PV.toAny, bind, Except.bind, pure, Except.pure, List.nil_append] at hr
    split at hr
    · cases hr
    · rename_i x hx
      split at hr
      · cases hr; exact (hv rfl).elim
      · split at hr
        · cases hr
        · rename_i ms hms
          exact e2.trans ((value_even g3 p2 (asVal_ne hx)).trans ((hm _ hms).trans e5))
  cases h with
  | rule_ok h =>
    cases h with
    | choice h =>
      cases h with
      | choice_ok h =>
        cases h with
        | action_ok h hr => exact list h hr
        | action_err h hr => exact list h hr
        | action_stop h hs => exact hs.elim
      | choice_next h1 h =>
        obtain rfl := h1.fail_back
        cases h with
        | choice_ok h =>
          have one : ∀ {fr l v0 c c' fr' o}, PlainAhead c → Big E ⟨false, []⟩ (.expr (.label .value (.rule .Value)) fr) c l
              (.ok v0 c' fr') → runAct E .onValueList17 fr' (textOf c c') c.loc = .ok (v, o) → Even c c' := by
            intro fr l v0 c c' fr' o hp h hr
            cases h with
            | label_stop _ hs => exact hs.elim
            | label_ok h =>
              refine value_even h hp ?_
              rintro rfl
              cases hr
          cases h with
          | action_ok h hr => exact one hp h hr
          | action_err h hr => exact one hp h hr
          | action_stop h hs => exact hs.elim
        | choice_next h1 h => cases h
  | rule_stop h hs => exact hs.elim

end Aql
