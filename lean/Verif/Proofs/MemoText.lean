import Verif.Proofs.MemoStep
/-!
What the text is like where clauses are evaluated.
-/

namespace Aql

variable {E : Env} {I : List Sym}

/-! ### Where an expression cannot begin -/

def nsSeq (g : PExpr → Bool) : List PExpr → Bool
  | [] => false
  | e :: es => g e || ((match e with | .opt e' => g e' | .star e' => g e' | _ => false) && nsSeq g es)

/-- The expression does not match where the next character is the given one. -/
def ns (x : Char) : Nat → PExpr → Bool
  | 0, _ => false
  | n + 1, e => match e with
    | .action _ e => ns x n e
    | .label _ e => ns x n e
    | .rule r => ns x n (grammar r)
    | .seq es => nsSeq (ns x n) es
    | .choice es => es.all (ns x n)
    | .lit (y :: _) false _ => y != x
    | .cls chars ranges ic inv _ =>
      (chars.contains (if ic then asciiLower x else x) ||
        ranges.any (fun p => p.1 ≤ (if ic then asciiLower x else x) && (if ic then asciiLower x else x) ≤ p.2)) == inv
    | .plus e => ns x n e
    | .recover _ e _ => ns x n e
    | _ => false

theorem ns_no {x : Char} (hx : x.val < 128) (n : Nat) : ∀ (e : PExpr) (ctx : Ctx) (fr : VFrame) (c c' : Cursor) (l : List Ev)
    (v : PV) (fr' : VFrame) (t : List Sym), ns x n e = true → c.rest = .ok x :: t →
    ¬ Big E ctx (.expr e fr) c l (.ok v c' fr') := by
  induction n with
  | zero => intro e _ _ _ _ _ _ _ _ h; cases h
  | succ n ih =>
    intro e ctx fr c c' l v fr' t hn hr hb
    cases e with
    | action a e =>
      cases hb with
      | action_ok h _ => exact ih e _ _ _ _ _ _ _ _ hn hr h
      | action_err h _ => exact ih e _ _ _ _ _ _ _ _ hn hr h
      | action_stop _ hs => exact hs
    | label a e =>
      cases hb with
      | label_ok h => exact ih e _ _ _ _ _ _ _ _ hn hr h
      | label_stop _ hs => exact hs
    | rule q =>
      cases hb with
      | rule_ok h => exact ih _ _ _ _ _ _ _ _ _ hn hr h
      | rule_stop _ hs => exact hs
    | choice es =>
      cases hb with
      | choice hb =>
        have : ∀ es l, es.all (ns x n) = true → ¬ Big E ctx (.choice fr es) c l (.ok v c' fr') := by
          intro es
          induction es with
          | nil => intro l _ hb; cases hb
          | cons e es ihe =>
            intro l hn' hb
            simp only [List.all_cons, Bool.and_eq_true] at hn'
            cases hb with
            | choice_ok h => exact ih e _ _ _ _ _ _ _ _ hn'.1 hr h
            | choice_next h h2 => cases h.fail_back; exact ihe _ hn'.2 h2
        exact this _ _ hn hb
    | seq es =>
      cases hb with
      | seq hb =>
        have hn' : nsSeq (ns x n) es = true := hn
        clear hn
        have : ∀ es acc l fr st, nsSeq (ns x n) es = true → ¬ Big E ctx (.seq st es acc fr) c l (.ok v c' fr') := by
          intro es
          induction es with
          | nil => intro acc l fr st h; cases h
          | cons e es ihe =>
            intro acc l fr st hs hb
            simp only [nsSeq, Bool.or_eq_true, Bool.and_eq_true] at hs
            cases hb with
            | seq_cons h h2 =>
              rcases hs with hs | ⟨hs, hs2⟩
              · exact ih e _ _ _ _ _ _ _ _ hs hr h
              · split at hs
                · cases h with
                  | opt_ok h => exact ih _ _ _ _ _ _ _ _ _ hs hr h
                  | opt_none h => cases h.fail_back; exact ihe _ _ _ _ hs2 h2
                · cases h with
                  | star h =>
                    cases h with
                    | rep_next h _ => exact ih _ _ _ _ _ _ _ _ _ hs hr h
                    | rep_stop h _ => cases h.fail_back; exact ihe _ _ _ _ hs2 h2
                · cases hs
        exact this _ _ _ _ _ hn' hb
    | lit w ic want =>
      cases w with
      | nil => cases hn
      | cons y w =>
        cases ic with
        | true => cases hn
        | false =>
          cases hb with
          | lit_ok h =>
            unfold litLoop at h
            rw [hr] at h
            have hne : ¬ x = y := by
              have : (y != x) = true := hn
              intro hh
              simp [hh] at this
            simp [Sym.rune, hne] at h
    | cls chars ranges ic inv want =>
      cases hb with
      | cls_ok h1 h2 =>
        rw [hr] at h1
        cases h1
        have hn' : ((chars.contains (if ic then asciiLower x else x) ||
          ranges.any (fun p => p.1 ≤ (if ic then asciiLower x else x) && (if ic then asciiLower x else x) ≤ p.2)) == inv) = true := hn
        unfold clsMatch at h2
        have hl : goLower E x = asciiLower x := by unfold goLower; rw [if_pos hx]
        simp only [Sym.rune, hl] at h2
        rw [beq_iff_eq] at hn'
        rw [hn'] at h2
        simp at h2
    | plus e =>
      cases hb with
      | plus h =>
        cases h with
        | rep_next h _ => exact ih _ _ _ _ _ _ _ _ _ hn hr h
        | rep_stop _ h => exact h ⟨rfl, rfl⟩
    | recover y e hd =>
      cases hb with
      | recover h => exact ih _ _ _ _ _ _ _ _ _ hn hr h
    | any => cases hn
    | not e => cases hn
    | star e => cases hn
    | opt e => cases hn
    | throw y => cases hn
    | state y => cases hn

/-! ### As long as possible -/

/-- From the first cursor to the second as long as the symbols are such. -/
def MaxTo (p : Sym → Bool) (c c' : Cursor) : Prop :=
  ∃ t, Adv c t c' ∧ (∀ s ∈ t, p s = true) ∧ ∀ s u, c'.rest = s :: u → p s = false

theorem adv_same {c a b : Cursor} {t : List Sym} (h : Adv c t a) (h' : Adv c t b) : a = b := by
  induction h with
  | refl c => cases h'; rfl
  | step h1 h2 ih => cases h' with | step h3 h4 => exact ih h4

theorem MaxTo.eq {p : Sym → Bool} {c a b : Cursor} (h : MaxTo p c a) (h' : MaxTo p c b) : a = b := by
  obtain ⟨t, h1, h2, h3⟩ := h
  obtain ⟨u, g1, g2, g3⟩ := h'
  have key : ∀ (t u x y : List Sym), t ++ x = u ++ y → (∀ s ∈ t, p s = true) → (∀ s ∈ u, p s = true) →
      (∀ s v, x = s :: v → p s = false) → (∀ s v, y = s :: v → p s = false) → t = u := by
    intro t
    induction t with
    | nil =>
      intro u x y he _ hu hx _
      cases u with
      | nil => rfl
      | cons s u =>
        have := hx s (u ++ y) he
        rw [hu s (by simp)] at this
        cases this
    | cons s t ih =>
      intro u x y he ht hu hx hy
      cases u with
      | nil =>
        have := hy s (t ++ x) he.symm
        rw [ht s (by simp)] at this
        cases this
      | cons s' u =>
        simp only [List.cons_append, List.cons.injEq] at he
        obtain ⟨rfl, he⟩ := he
        rw [ih u x y he (fun s h => ht s (by simp [h])) (fun s h => hu s (by simp [h])) hx hy]
  have := key t u _ _ (h1.rest.symm.trans g1.rest) h2 g2 h3 g3
  subst this
  exact adv_same h1 g1

theorem rep_max {ctx : Ctx} {chars : List Char} {ranges : List (Char × Char)} {ic inv : Bool} {w : Str} {one : Bool} (n : Nat) :
    ∀ {fr acc c l v c' fr'}, c.rest.length ≤ n →
    Big E ctx (.rep fr (.cls chars ranges ic inv w) one acc) c l (.ok v c' fr') →
    MaxTo (fun s => clsMatch E chars ranges ic inv s.rune) c c' := by
  induction n with
  | zero =>
    intro fr acc c l v c' fr' hlen hb
    cases hb with
    | rep_next h _ =>
      cases h with
      | cls_ok h1 _ => rw [h1] at hlen; simp at hlen
    | rep_stop h _ =>
      cases h.fail_back
      refine ⟨[], .refl _, by simp, ?_⟩
      intro s u hr
      rw [hr] at hlen
      simp at hlen
  | succ n ih =>
    intro fr acc c l v c' fr' hlen hb
    cases hb with
    | rep_next h h2 =>
      cases h with
      | cls_ok h1 hm =>
        obtain ⟨t, g1, g2, g3⟩ := ih (by rw [next_rest h1]; rw [h1] at hlen; simpa using hlen) h2
        refine ⟨_ :: t, .step h1 g1, ?_, g3⟩
        intro s hs
        rcases List.mem_cons.1 hs with rfl | hs
        · exact hm
        · exact g2 s hs
    | rep_stop h _ =>
      cases h.fail_back
      refine ⟨[], .refl _, by simp, ?_⟩
      intro s u hr
      cases h with
      | cls_fail h => exact h s u hr

def wsSym (s : Sym) : Bool := [' ', '\n', '\t', '\r'].contains s.rune

theorem clsMatch_ws (s : Sym) : clsMatch E [' ', '\n', '\t', '\r'] [] false false s.rune = wsSym s := by
  simp [clsMatch, wsSym]

theorem max_ws {c c' : Cursor}
    (h : MaxTo (fun s => clsMatch E [' ', '\n', '\t', '\r'] [] false false s.rune) c c') : MaxTo wsSym c c' := by
  have : (fun s : Sym => clsMatch E [' ', '\n', '\t', '\r'] [] false false s.rune) = wsSym := funext clsMatch_ws
  rwa [this] at h

theorem ws_to {ctx : Ctx} {fr fr' : VFrame} {c c' : Cursor} {l : List Ev} {v : PV}
    (h : Big E ctx (.expr (.rule .ws) fr) c l (.ok v c' fr')) : MaxTo wsSym c c' := by
  cases h with
  | rule_ok h =>
    cases h with
    | star h => exact max_ws (rep_max _ le_rfl h)
  | rule_stop _ hs => exact hs.elim

theorem space_to {ctx : Ctx} {fr fr' : VFrame} {c c' : Cursor} {l : List Ev} {v : PV}
    (h : Big E ctx (.expr (.rule .space) fr) c l (.ok v c' fr')) : MaxTo wsSym c c' := by
  cases h with
  | rule_ok h =>
    cases h with
    | plus h => exact max_ws (rep_max _ le_rfl h)
  | rule_stop _ hs => exact hs.elim

theorem litLoop_adv : ∀ (w : Str) (c c' : Cursor) (l : List Ev), (∀ x ∈ w, x ≠ '�') → litLoop E false w c = (l, some c') →
    Adv c (w.map .ok) c' := by
  intro w
  induction w with
  | nil =>
    intro c c' l _ h
    simp only [litLoop, Prod.mk.injEq, Option.some.injEq] at h
    rw [h.2]
    exact .refl _
  | cons x w ih =>
    intro c c' l hw h
    unfold litLoop at h
    cases hr : c.rest with
    | nil => rw [hr] at h; simp at h
    | cons s t =>
      rw [hr] at h
      simp only [Bool.false_eq_true, if_false] at h
      split at h
      · rename_i hs
        simp only [Prod.mk.injEq] at h
        have hsx : s = .ok x := by
          cases s with
          | ok y => rw [show y = x from hs]
          | bad b => exact absurd (show '�' = x from hs) (hw x (by simp)).symm
        subst hsx
        exact .step hr (ih _ _ _ (fun y hy => hw y (by simp [hy])) (Prod.ext rfl h.2))
      · simp at h

theorem lit_adv {ctx : Ctx} {w want : Str} {fr fr' : VFrame} {c c' : Cursor} {l : List Ev} {v : PV} (hw : ∀ x ∈ w, x ≠ '�')
    (h : Big E ctx (.expr (.lit w false want) fr) c l (.ok v c' fr')) : Adv c (w.map .ok) c' := by
  cases h with
  | lit_ok h => exact litLoop_adv _ _ _ _ hw h

theorem lit1_next {ctx : Ctx} {x : Char} {want : Str} {fr fr' : VFrame} {c c' : Cursor} {l : List Ev} {v : PV} (hw : x ≠ '�')
    (h : Big E ctx (.expr (.lit [x] false want) fr) c l (.ok v c' fr')) : c' = c.next ∧ ∃ t, c.rest = .ok x :: t := by
  have := lit_adv (by simpa using hw) h
  cases this with
  | step h1 h2 => cases h2; exact ⟨rfl, _, h1⟩

/-! ### NOT -/

theorem wsSym_ok {s : Sym} (h : wsSym s = true) : ∃ x, s = .ok x ∧ (x = ' ' ∨ x = '\n' ∨ x = '\t' ∨ x = '\r') := by
  cases s with
  | ok x => exact ⟨x, rfl, by simpa [wsSym, Sym.rune] using h⟩
  | bad b => exact absurd h (by simp [wsSym, Sym.rune])

theorem not_cases {fr fr' : VFrame} {c k : Cursor} {l : List Ev} {v : PV}
    (h : Big E ctx0 (.expr (.rule .logicalNOT) fr) c l (.ok v k fr')) :
    (∃ t, c.rest = .ok '!' :: t) ∨
    ∃ c3 s u, Adv c [.ok 'N', .ok 'O', .ok 'T'] c3 ∧ c3.rest = s :: u ∧ wsSym s = true ∧ MaxTo wsSym c3 k := by
  cases h with
  | rule_stop _ hs => exact hs.elim
  | rule_ok h =>
    cases h with
    | choice h =>
      cases h with
      | choice_ok h =>
        cases h with
        | seq h =>
          cases h with
          | seq_cons h1 h2 =>
            cases h2 with
            | seq_cons h3 h4 =>
              cases h4
              have ha := lit_adv (by decide) h1
              have hm := space_to h3
              cases h3 with
              | rule_stop _ hs => exact hs.elim
              | rule_ok h3 =>
                cases h3 with
                | plus h3 =>
                  cases h3 with
                  | rep_next h5 _ =>
                    cases h5 with
                    | cls_ok h6 h7 =>
                      rw [clsMatch_ws] at h7
                      exact .inr ⟨_, _, _, ha, h6, h7, hm⟩
                  | rep_stop _ hne => exact absurd ⟨rfl, rfl⟩ hne
      | choice_next hf h =>
        cases hf.fail_back
        cases h with
        | choice_ok h =>
          cases h with
          | seq h =>
            cases h with
            | seq_cons h1 h2 => exact .inl (lit1_next (by decide) h1).2
        | choice_next _ h => cases h

/-- Behind `NOT` and white space there is no field that begins with the `NOT`. -/
theorem field_not {fr fr' : VFrame} {c c1 c3 : Cursor} {l : List Ev} {v : PV} {s : Sym} {u : List Sym}
    (h : Big E ctx0 (.expr (.rule .Field) fr) c l (.ok v c1 fr'))
    (ha : Adv c [.ok 'N', .ok 'O', .ok 'T'] c3) (hr : c3.rest = s :: u) (hs : wsSym s = true) : c1 = c3 := by
  obtain ⟨x, rfl, hx⟩ := wsSym_ok hs
  have hN : ∃ t, c.rest = .ok 'N' :: t := by
    cases ha with
    | step h _ => exact ⟨_, h⟩
  obtain ⟨t, hN⟩ := hN
  cases h with
  | rule_stop _ hs => exact hs.elim
  | rule_ok h =>
    have key : ∀ {fr l v fr'}, Big E ctx0 (.expr (.label .pieces (.seq [.rule .FieldPiece,
          .star (.seq [.lit ['.'] false "\".\"".toList, .rule .FieldPiece])])) fr) c l (.ok v c1 fr') → c1 = c3 := by
      intro fr l v fr' h
      cases h with
      | label_stop _ hs => exact hs.elim
      | label_ok h =>
        cases h with
        | seq h =>
          cases h with
          | seq_cons h1 h2 =>
            rename_i c2 _ _
            have hc2 : c2 = c3 := by
              cases h1 with
              | rule_stop _ hs => exact hs.elim
              | rule_ok h1 =>
                cases h1 with
                | choice h1 =>
                  cases h1 with
                  | choice_ok h1 =>
                    exact absurd h1 (ns_no (by decide) 24 _ _ _ _ _ _ _ _ _ (by decide) hN)
                  | choice_next hf h1 =>
                    cases hf.fail_back
                    cases h1 with
                    | choice_ok h1 =>
                      have hm : ∀ {fr l v fr'}, Big E ctx0 (.expr (.plus (.cls ['_', '-'] [('a', 'z'), ('0', '9')] true false
                          "[a-z0-9_-]i".toList)) fr) c l (.ok v c2 fr') → c2 = c3 := by
                        intro fr l v fr' h
                        cases h with
                        | plus h =>
                          refine (rep_max _ le_rfl h).eq ⟨_, ha, ?_, ?_⟩
                          · intro s hs
                            simp only [List.mem_cons, List.not_mem_nil, or_false] at hs
                            rcases hs with rfl | rfl | rfl <;>
                              simp [clsMatch, Sym.rune, goLower, asciiLower] <;> decide
                          · intro s' u' hr'
                            rw [hr] at hr'
                            cases hr'
                            rcases hx with rfl | rfl | rfl | rfl <;>
                              simp [clsMatch, Sym.rune, goLower, asciiLower] <;> decide
                      cases h1 with
                      | rule_stop _ hs => exact hs.elim
                      | rule_ok h1 =>
                        cases h1 with
                        | action_ok h1 _ => exact hm h1
                        | action_err h1 _ => exact hm h1
                        | action_stop _ hs => exact hs.elim
                    | choice_next hf h1 =>
                      cases hf.fail_back
                      cases h1 with
                      | choice_ok h1 => exact absurd h1 (ns_no (by decide) 24 _ _ _ _ _ _ _ _ _ (by decide) hN)
                      | choice_next _ h => cases h
            subst hc2
            cases h2 with
            | seq_cons h3 h4 =>
              cases h4
              cases h3 with
              | star h3 =>
                cases h3 with
                | rep_next h5 _ =>
                  rcases hx with rfl | rfl | rfl | rfl <;>
                    exact absurd h5 (ns_no (by decide) 24 _ _ _ _ _ _ _ _ _ (by decide) hr)
                | rep_stop h5 _ => exact h5.fail_back
    cases h with
    | action_ok h _ => exact key h
    | action_err h _ => exact key h
    | action_stop _ hs => exact hs.elim

/-- No field begins here. -/
theorem noField {x : Char} {t : List Sym} {fr fr' : VFrame} {c c' : Cursor} {l : List Ev} {v : PV}
    (hx : x = '(' ∨ x = '!' ∨ x = ':') (hr : c.rest = .ok x :: t) :
    ¬ Big E ctx0 (.expr (.rule .Field) fr) c l (.ok v c' fr') := by
  rcases hx with rfl | rfl | rfl <;> exact ns_no (by decide) 24 _ _ _ _ _ _ _ _ _ (by decide) hr

/-- A value that begins with a bracket is complained about. -/
theorem value_paren {t : List Sym} {fr fr' : VFrame} {c c' : Cursor} {l : List Ev} {v : PV} (hr : c.rest = .ok '(' :: t)
    (h : Big E ctx0 (.expr (.rule .Value) fr) c l (.ok v c' fr')) : errorsOf l ≠ [] := by
  cases h with
  | rule_stop _ hs => exact hs.elim
  | rule_ok h =>
    cases h with
    | choice h =>
      cases h with
      | choice_ok h => exact absurd h (ns_no (by decide) 24 _ _ _ _ _ _ _ _ _ (by decide) hr)
      | choice_next hf h =>
        cases hf.fail_back
        cases h with
        | choice_ok h =>
          cases h with
          | action_ok h ha =>
            simp only [runAct] at ha
            split at ha
            · cases ha
            · split at ha <;> cases ha
          | action_err h ha =>
            intro hh
            simp [errorsOf, List.filterMap_append] at hh
          | action_stop _ hs => exact hs.elim
        | choice_next _ h => cases h

end Aql
