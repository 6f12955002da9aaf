import Verif.Proofs.Torn
/-!
Runs that stop before a capital letter.
-/

namespace Aql

open Spec

variable {E : Env}

/-! ### Tests inside strings and regular expressions -/

/-- Rules whose tests are all where they begin. -/
def evenR : Rule → Bool
  | .EscapedChar | .SingleCharEscape | .HexDigit | .EOL | .EOF | .RegexEscape => true
  | _ => false

mutual
/-- All tests are where the expression begins. -/
def evenE : PExpr → Bool
  | .lit .. => true
  | .cls .. => true
  | .any => true
  | .not e => evenE e
  | .rule r => evenR r
  | .choice es => evenC es
  | .seq es => evenS es
  | _ => false
def evenC : List PExpr → Bool
  | [] => true
  | e :: es => evenE e && evenC es
def evenS : List PExpr → Bool
  | [] => true
  | [e] => evenE e
  | .not e :: es => evenE e && evenS es
  | _ => false
end

theorem even_grammar (r : Rule) (h : evenR r = true) : evenE (grammar r) = true := by
  cases r <;> first | rfl | cases h

def Job.even : Job → Bool
  | .expr e _ => evenE e
  | .seq _ es _ _ => evenS es
  | .choice _ es => evenC es
  | _ => false

/-- Every test is at this place. -/
def MarksAt (q : Loc) (l : List Ev) : Prop := ∀ f i q' w, Ev.mark f i q' w ∈ l → q' = q

theorem MarksAt.tick {q : Loc} {l : List Ev} (h : MarksAt q l) : MarksAt q (.tick :: l) :=
  fun f i q' w hm => h f i q' w (mem_tick_mark hm)

theorem MarksAt.append {q : Loc} {l l' : List Ev} (h : MarksAt q l) (h' : MarksAt q l') : MarksAt q (l ++ l') := by
  intro f i q' w hm
  rcases List.mem_append.1 hm with hm | hm
  · exact h _ _ _ _ hm
  · exact h' _ _ _ _ hm

theorem MarksAt.one {q : Loc} {f i : Bool} {w : Str} : MarksAt q [.mark f i q w] := by
  intro f i q' w hm
  cases List.mem_singleton.1 hm
  rfl

theorem MarksAt.enc {q : Loc} {c : Cursor} : MarksAt q (encErr c) := by
  intro f i q' w hm
  unfold encErr at hm
  split at hm
  · simp at hm
  · cases hm

theorem MarksAt.nil {q : Loc} : MarksAt q [] := by
  intro f i q' w hm
  cases hm

theorem litLoop_noMarks {ic : Bool} {s : Str} {c : Cursor} {l : List Ev} {o : Option Cursor}
    (h : litLoop E ic s c = (l, o)) (q : Loc) : MarksAt q l := by
  intro f i q' w hm
  have := in_litLoop (P := fun _ => false) h _ hm
  cases this

theorem Big.flatten {ctx : Ctx} {j : Job} {c : Cursor} {l : List Ev} {r : Res} (h : Big E ctx j c l r) :
    j.even = true → MarksAt c.loc l := by
  induction h with
  | seq h ih => intro hj; exact (ih hj).tick
  | seq_nil => intro _; exact .nil
  | @seq_cons ctx st e es acc fr c l v c' fr' l' r h1 h2 ih1 ih2 =>
    intro hj
    cases es with
    | nil =>
      cases h2
      rw [List.append_nil]
      exact ih1 hj
    | cons e2 es =>
      cases e <;> first | (cases hj; done) | skip
      rw [Job.even, evenS, Bool.and_eq_true] at hj
      · cases h1 with
        | not_ok h => exact (ih1 hj.1).append (ih2 hj.2)
      · intro h; cases h
  | @seq_fail ctx st e es acc fr c l c' h ih =>
    intro hj
    cases es with
    | nil => exact ih hj
    | cons e2 es =>
      cases e <;> first | (cases hj; done) | skip
      rw [Job.even, evenS, Bool.and_eq_true] at hj
      · exact ih hj.1
      · intro h; cases h
  | @seq_panic ctx st e es acc fr c l p c' h ih =>
    intro hj
    cases es with
    | nil => exact ih hj
    | cons e2 es =>
      cases e <;> first | (cases hj; done) | skip
      rw [Job.even, evenS, Bool.and_eq_true] at hj
      · exact ih hj.1
      · intro h; cases h
  | choice h ih => intro hj; exact (ih hj).tick
  | choice_nil => intro _; exact .nil
  | choice_ok h ih => intro hj; rw [Job.even, evenC, Bool.and_eq_true] at hj; exact ih hj.1
  | choice_next h1 h2 ih1 ih2 =>
    intro hj
    rw [Job.even, evenC, Bool.and_eq_true] at hj
    have hb := h1.fail_back
    subst hb
    exact (ih1 hj.1).append (ih2 hj.2)
  | choice_panic h ih => intro hj; rw [Job.even, evenC, Bool.and_eq_true] at hj; exact ih hj.1
  | rule_ok h ih => intro hj; exact (ih (even_grammar _ hj)).tick
  | rule_stop h hs ih => intro hj; exact (ih (even_grammar _ hj)).tick
  | lit_ok h => intro _; exact ((litLoop_noMarks h _).append .one).tick
  | lit_fail h => intro _; exact ((litLoop_noMarks h _).append .one).tick
  | cls_ok hr hm => intro _; exact (MarksAt.enc.append .one).tick
  | cls_fail h => intro _; exact MarksAt.one.tick
  | any_ok hr => intro _; exact (MarksAt.enc.append .one).tick
  | any_eof hr => intro _; exact MarksAt.one.tick
  | not_ok h ih => intro hj; exact (ih hj).tick
  | not_fail h ih => intro hj; exact (ih hj).tick
  | not_panic h ih => intro hj; exact (ih hj).tick
  | _ => intro hj; cases hj

/-- Rules that make no test beyond their end. -/
def firmR : Rule → Bool
  | .EscapeSequence | .UnicodeEscape | .RegexChar => true
  | x => evenR x

mutual
/-- No test is beyond the end of the match. -/
def firmE : PExpr → Bool
  | .lit .. => true
  | .cls .. => true
  | .any => true
  | .not e => evenE e
  | .rule r => firmR r
  | .choice es => firmC es
  | .seq es => firmS es
  | _ => false
def firmC : List PExpr → Bool
  | [] => true
  | [e] => firmE e
  | e :: es => firmE e && evenE e && firmC es
def firmS : List PExpr → Bool
  | [] => true
  | e :: es => firmE e && firmS es
end

theorem firm_grammar (r : Rule) (h : firmR r = true) : firmE (grammar r) = true := by
  cases r <;> first | rfl | cases h

def Job.firm : Job → Bool
  | .expr e _ => firmE e
  | .seq _ es _ _ => firmS es
  | .choice _ es => firmC es
  | _ => false

/-- Every test is at this offset or before. -/
def UpTo (n : Nat) (l : List Ev) : Prop := ∀ f i q w, Ev.mark f i q w ∈ l → q.off ≤ n

theorem UpTo.tick {n : Nat} {l : List Ev} (h : UpTo n l) : UpTo n (.tick :: l) :=
  fun f i q w hm => h f i q w (mem_tick_mark hm)

theorem UpTo.append {n : Nat} {l l' : List Ev} (h : UpTo n l) (h' : UpTo n l') : UpTo n (l ++ l') := by
  intro f i q w hm
  rcases List.mem_append.1 hm with hm | hm
  · exact h _ _ _ _ hm
  · exact h' _ _ _ _ hm

theorem UpTo.mono {n m : Nat} {l : List Ev} (h : UpTo n l) (hn : n ≤ m) : UpTo m l :=
  fun f i q w hm => Nat.le_trans (h f i q w hm) hn

theorem UpTo.flat {n : Nat} {q : Loc} {l : List Ev} (h : MarksAt q l) (hq : q.off ≤ n) : UpTo n l :=
  fun f i q' w hm => by rw [h f i q' w hm]; exact hq

theorem ok_off {ctx : Ctx} {j : Job} {pre s : Str} {l : List Ev} {v : PV} {c' : Cursor} {fr : VFrame}
    (h : Big E ctx j (cur pre s) l (.ok v c' fr)) : bytesOf pre ≤ c'.loc.off := by
  obtain ⟨u, hu⟩ := h.ok_adv
  obtain ⟨a, b, rfl, rfl⟩ := adv_cur hu
  rw [cur_off, bytesOf_append']
  omega

theorem Big.firmly {ctx : Ctx} {j : Job} {c : Cursor} {l : List Ev} {r : Res} (h : Big E ctx j c l r) :
    ∀ {pre s : Str} {v : PV} {c' : Cursor} {fr : VFrame}, c = cur pre s → r = .ok v c' fr → j.firm = true →
      UpTo c'.loc.off l := by
  induction h with
  | seq h ih => intro pre s v c' fr hc hr hj; exact (ih hc hr hj).tick
  | seq_nil => intro pre s v c' fr hc hr hj; exact .flat .nil (Nat.le_refl _)
  | seq_cons h1 h2 ih1 ih2 =>
    intro pre s v c' fr hc hr hj
    rw [Job.firm, firmS, Bool.and_eq_true] at hj
    subst hc
    obtain ⟨u, hu⟩ := h1.ok_adv
    obtain ⟨a, b, rfl, rfl⟩ := adv_cur hu
    subst hr
    refine .append ((ih1 rfl rfl hj.1).mono ?_) (ih2 rfl rfl hj.2)
    rw [cur_off]
    exact ok_off h2
  | choice h ih => intro pre s v c' fr hc hr hj; exact (ih hc hr hj).tick
  | @choice_ok ctx fr e es c l v c' fr' h ih =>
    intro pre s v c' fr hc hr hj
    cases hr
    cases es with
    | nil => exact ih hc rfl hj
    | cons e2 es =>
      rw [Job.firm, firmC, Bool.and_eq_true, Bool.and_eq_true] at hj
      · exact ih hc rfl hj.1.1
      · intro h; cases h
  | @choice_next ctx fr e es c l c' l' r h1 h2 ih1 ih2 =>
    intro pre s v c' fr hc hr hj
    have hb := h1.fail_back
    subst hb hc hr
    cases es with
    | nil => cases h2
    | cons e2 es =>
      rw [Job.firm, firmC, Bool.and_eq_true, Bool.and_eq_true] at hj
      · refine .append (.flat (h1.flatten hj.1.2) ?_) (ih2 rfl rfl hj.2)
        rw [cur_off]
        exact ok_off h2
      · intro h; cases h
  | rule_ok h ih =>
    intro pre s v c' fr hc hr hj
    cases hr
    exact (ih hc rfl (firm_grammar _ hj)).tick
  | rule_stop h hs ih =>
    intro pre s v c' fr hc hr hj
    subst hr
    cases hs
  | lit_ok h =>
    intro pre s v c' fr hc hr hj
    have hb := Big.lit_ok (E := E) (ctx := ⟨false, []⟩) (w := []) (fr := []) h
    cases hr
    subst hc
    exact .flat ((litLoop_noMarks h _).append .one).tick (by rw [cur_off]; exact ok_off hb)
  | cls_ok h1 h2 =>
    intro pre s v c' fr hc hr hj
    have hb := Big.cls_ok (E := E) (ctx := ⟨false, []⟩) (w := []) (fr := []) h1 h2
    cases hr
    subst hc
    exact .flat (MarksAt.enc.append .one).tick (by rw [cur_off]; exact ok_off hb)
  | any_ok h1 =>
    intro pre s v c' fr hc hr hj
    have hb := Big.any_ok (E := E) (ctx := ⟨false, []⟩) (fr := []) h1
    cases hr
    subst hc
    exact .flat (MarksAt.enc.append .one).tick (by rw [cur_off]; exact ok_off hb)
  | not_ok h ih =>
    intro pre s v c' fr hc hr hj
    cases hr
    exact .flat (h.flatten hj).tick (Nat.le_refl _)
  | choice_nil => intro pre s v c' fr hc hr hj; cases hr
  | seq_fail h ih => intro pre s v c' fr hc hr hj; cases hr
  | seq_panic h ih => intro pre s v c' fr hc hr hj; cases hr
  | choice_panic h ih => intro pre s v c' fr hc hr hj; cases hr
  | lit_fail h => intro pre s v c' fr hc hr hj; cases hr
  | cls_fail h => intro pre s v c' fr hc hr hj; cases hr
  | any_eof hr => intro pre s v c' fr hc hr hj; cases hr
  | not_fail h ih => intro pre s v c' fr hc hr hj; cases hr
  | not_panic h ih => intro pre s v c' fr hc hr hj; cases hr
  | _ => intro pre s v c' fr hc hr hj; cases hj

/-- An element of a string or regular expression that fails looked no further, unless it is an escape. -/
def Blunt (E : Env) (ctx : Ctx) (e : PExpr) : Prop :=
  firmE e = true ∧ ∀ {pre s : Str} {l : List Ev} {d : Cursor}, Big E ctx (.expr e []) (cur pre s) l (.fail d) →
    MarksAt (cur pre s).loc l ∨ ∃ t, s = '\\' :: t

theorem blunt_choice {ctx : Ctx} {e1 e2 : PExpr} {w : Str} (h1 : evenE e1 = true)
    (hf : firmE (.choice [e1, .seq [.lit ['\\'] false w, e2]]) = true) :
    Blunt E ctx (.choice [e1, .seq [.lit ['\\'] false w, e2]]) := by
  refine ⟨hf, ?_⟩
  intro pre s l d h
  cases h with
  | choice h =>
  cases h with
  | choice_next k1 k2 =>
  have hb := k1.fail_back
  subst hb
  cases k2 with
  | choice_next k2 k3 =>
  cases k3
  cases k2 with
  | seq k2 =>
  cases k2 with
  | seq_cons k2 k3 =>
    right
    rcases lit_run k2 with ⟨a, b, v, hs, ha, -⟩ | ⟨-, h, -⟩
    · simp only [Bool.false_eq_true, if_false, List.map_id'] at ha
      subst ha
      exact ⟨b, hs⟩
    · cases h
  | seq_fail k2 =>
    left
    rw [List.append_nil]
    exact ((k1.flatten h1).append (k2.flatten rfl).tick).tick

theorem blunt_regex (ctx : Ctx) : Blunt E ctx (.rule .RegexChar) := by
  refine ⟨rfl, ?_⟩
  intro pre s l d h
  cases h with
  | rule_stop h _ =>
    rcases (blunt_choice (E := E) (ctx := ctx) rfl rfl).2 h with h | h
    · exact .inl h.tick
    · exact .inr h

theorem loop_firm {ctx : Ctx} {e : PExpr} (he : Blunt E ctx e) {j : Job} {c : Cursor} {l : List Ev} {r : Res}
    (h : Big E ctx j c l r) {fr fr' : VFrame} {one : Bool} {acc : List PV} {pre s : Str} {v : PV} {c' : Cursor}
    (hj : j = .rep fr e one acc) (hc : c = cur pre s) (hr : r = .ok v c' fr') :
    ∃ a b, s = a ++ b ∧ c' = cur (pre ++ a) b ∧ (UpTo c'.loc.off l ∨ ∃ t, b = '\\' :: t) := by
  induction h generalizing acc pre s with
  | rep_next h1 h2 _ ih =>
    cases hj
    subst hc
    obtain ⟨u, hu⟩ := h1.ok_adv
    obtain ⟨a, b, rfl, rfl⟩ := adv_cur hu
    obtain ⟨a', b', rfl, hc', h⟩ := ih he rfl rfl hr
    refine ⟨a ++ a', b', by simp, by rw [hc', List.append_assoc], ?_⟩
    rcases h with h | h
    · refine .inl (.append ((h1.firmly rfl rfl he.1).mono ?_) h)
      rw [cur_off]
      subst hr
      exact ok_off h2
    · exact .inr h
  | rep_stop h1 _ _ =>
    cases hj
    have hb := h1.fail_back
    subst hb hc
    cases hr
    refine ⟨[], s, rfl, by simp, ?_⟩
    rcases he.2 h1 with h | h
    · exact .inl (.flat h (Nat.le_refl _))
    · exact .inr h
  | rep_fail h _ => cases hr
  | rep_panic h _ => cases hr
  | _ => cases hj

theorem ending {ctx : Ctx} {z : Rule} {lab : FailLabel} {q : Char} {w2 : Str} {hd : PExpr} {rs : List (FailLabel × PExpr)}
    (hz : grammar z = .choice [.lit [q] false w2, .throw lab]) (hh : ∃ y, hd = .rule y ∧ ∃ st, grammar y = .state st)
    {fr fr' : VFrame} {pre s : Str} {l : List Ev} {v : PV} {c' : Cursor}
    (h : Big E { ctx with recov := (lab, hd) :: rs } (.expr (.rule z) fr) (cur pre s) l (.ok v c' fr')) (hl : errorsOf l = []) :
    UpTo (bytesOf pre) l ∧ s.head? = some q := by
  obtain ⟨y, rfl, st, hy⟩ := hh
  have bad : ∀ {ctx fr c l r}, Big E ctx (.expr (.rule y) fr) c l r → errorsOf l ≠ [] := by
    intro ctx fr c l r h
    cases h with
    | rule_ok h => rw [hy] at h; cases h; simp [errorsOf]
    | rule_stop h _ => rw [hy] at h; cases h; simp [errorsOf]
  cases h with
  | rule_stop h hs => exact hs.elim
  | rule_ok h =>
  rw [hz] at h
  cases h with
  | choice h =>
  cases h with
  | choice_ok h =>
    constructor
    · exact .flat (h.flatten rfl).tick.tick (by rw [cur_off])
    · rcases lit_run h with ⟨a, b, v, hs, ha, -⟩ | ⟨-, h, -⟩
      · simp only [Bool.false_eq_true, if_false, List.map_id'] at ha
        subst ha hs
        rfl
      · cases h
  | choice_next k1 k2 =>
  simp only [errorsOf_cons_tick, errorsOf_append_nil] at hl
  cases k2 with
  | choice_next k2 k3 => cases k3
  | choice_ok k2 =>
  cases k2 with
  | throw k2 =>
  rw [errorsOf_cons_tick] at hl
  cases k2 with
  | throw_ok h => exact (bad h hl.2).elim
  | throw_skip hn h => exact (hn rfl).elim
  | throw_next h _ => exact (bad h (errorsOf_append_nil.1 hl.2).1).elim

theorem token_firm {ctx : Ctx} {e : PExpr} {x z : Rule} {lab : FailLabel} {act : Act} {q : Char} {w1 w2 : Str} {hd : PExpr}
    (hx : grammar x = .recover lab (.action act (.seq [.lit [q] false w1, .star e, .rule z])) hd)
    (hz : grammar z = .choice [.lit [q] false w2, .throw lab]) (hh : ∃ y, hd = .rule y ∧ ∃ st, grammar y = .state st)
    (he : ∀ ctx, Blunt E ctx e) (hq : q ≠ '\\') {fr fr' : VFrame} {pre s : Str} {l : List Ev} {v : PV} {c' : Cursor}
    (h : Big E ctx (.expr (.rule x) fr) (cur pre s) l (.ok v c' fr')) (hl : errorsOf l = []) : UpTo c'.loc.off l := by
  cases h with
  | rule_stop h hs => exact hs.elim
  | rule_ok h =>
  rw [hx] at h
  cases h with
  | recover h =>
  cases h with
  | action_stop h hs => exact hs.elim
  | action_err h _ =>
    simp only [errorsOf_cons_tick, errorsOf_append_nil] at hl
    cases hl.2
  | action_ok h _ =>
  simp only [errorsOf_cons_tick] at hl
  cases h with
  | seq h =>
  simp only [errorsOf_cons_tick] at hl
  refine UpTo.tick (UpTo.tick (UpTo.tick (UpTo.tick ?_)))
  cases h with
  | seq_cons k1 h =>
  cases h with
  | seq_cons k2 h =>
  cases h with
  | seq_cons k3 h =>
  cases h
  rw [List.append_nil] at hl ⊢
  rw [errorsOf_append_nil, errorsOf_append_nil] at hl
  have o1 := ok_off k1
  obtain ⟨u, hu⟩ := k1.ok_adv
  obtain ⟨a1, b1, rfl, rfl⟩ := adv_cur hu
  have o2 := ok_off k2
  cases k2 with
  | star k2 =>
  obtain ⟨a2, b2, rfl, rfl, hk2⟩ := loop_firm (he _) k2 rfl rfl rfl
  have o3 := ok_off k3
  have hend : UpTo (bytesOf (pre ++ a1 ++ a2)) _ ∧ b2.head? = some q := ending hz hh k3 hl.2.2
  have u1 := k1.firmly rfl rfl rfl
  rw [cur_off] at o1 o2 u1 hk2
  refine .append (u1.mono (Nat.le_trans o2 o3)) (.append ?_ (hend.1.mono o3))
  rcases hk2 with h | ⟨t, rfl⟩
  · exact h.tick.mono o3
  · have := hend.2
    simp only [List.head?_cons, Option.some.injEq] at this
    exact absurd this.symm hq

theorem token_fail {ctx : Ctx} {x z : Rule} {e hd : PExpr} {lab : FailLabel} {act : Act} {q : Char} {w1 : Str}
    (hx : grammar x = .recover lab (.action act (.seq [.lit [q] false w1, .star e, .rule z])) hd)
    {fr : VFrame} {pre s : Str} {l : List Ev} {d : Cursor}
    (h : Big E ctx (.expr (.rule x) fr) (cur pre s) l (.fail d)) (hs : NoHead (· = q) s) : MarksAt (cur pre s).loc l := by
  cases h with
  | rule_stop h _ =>
  rw [hx] at h
  cases h with
  | recover h =>
  cases h with
  | action_stop h _ =>
  cases h with
  | seq h =>
  cases h with
  | seq_cons k1 h =>
    exfalso
    rcases lit_run k1 with ⟨a, b, v, e, ha, -⟩ | ⟨-, h, -⟩
    · simp only [Bool.false_eq_true, if_false, List.map_id'] at ha
      subst ha
      exact hs q b e rfl
    · cases h
  | seq_fail k1 => exact (k1.flatten rfl).tick.tick.tick.tick

/-- Strings and regular expressions: their tests, and their last character. -/
theorem tok_tests {x : Rule} (hx : isTok x = true) {ctx : Ctx} {fr : VFrame} {pre s : Str} {l : List Ev} {r : Res}
    (h : Big E ctx (.expr (.rule x) fr) (cur pre s) l r) (hl : errorsOf l = []) (hr : r.Calm) :
    (MarksAt (cur pre s).loc l ∧ ∃ d, r = .fail d) ∨
    ∃ a b v fr' q, s = a ++ q :: b ∧ (q = '"' ∨ q = '/') ∧ r = .ok v (cur (pre ++ (a ++ [q])) b) fr' ∧ UpTo (bytesOf (pre ++ (a ++ [q]))) l := by
  have good : ∀ {q w}, TokRule E ctx x q w → (q = '"' ∨ q = '/') →
      (∀ d, r = .fail d → NoHead (· = q) s → MarksAt (cur pre s).loc l) → (∀ v c fr, r = .ok v c fr → UpTo c.loc.off l) →
      (MarksAt (cur pre s).loc l ∧ ∃ d, r = .fail d) ∨
      ∃ a b v fr' q, s = a ++ q :: b ∧ (q = '"' ∨ q = '/') ∧ r = .ok v (cur (pre ++ (a ++ [q])) b) fr' ∧ UpTo (bytesOf (pre ++ (a ++ [q]))) l := by
    intro q w T hq h1 h2
    cases r with
    | panic _ _ => exact hr.elim
    | fail d => exact .inl ⟨h1 d rfl (T.fails h hl).1, d, rfl⟩
    | ok v c fr' =>
      obtain ⟨a, b, rfl, ho⟩ := okJ_of_big h hl
      obtain ⟨t, rfl⟩ := T.head (okR.1 ho).2
      have := h2 _ _ _ rfl
      rw [cur_off] at this
      exact .inr ⟨q :: t, b, v, fr', q, by have := ho.1; simpa using this, hq, rfl, this⟩
  cases x <;> first | (exfalso; revert hx; decide) | skip
  · refine good (tok_quoted ctx) (.inl rfl) ?_ ?_
    · rintro d rfl hs
      exact token_fail rfl h hs
    · rintro v c fr rfl
      exact token_firm rfl rfl ⟨_, rfl, _, rfl⟩ (fun _ => blunt_choice rfl rfl) (by decide) h hl
  · refine good (tok_regex ctx) (.inr rfl) ?_ ?_
    · rintro d rfl hs
      exact token_fail rfl h hs
    · rintro v c fr rfl
      exact token_firm rfl rfl ⟨_, rfl, _, rfl⟩ (fun _ => blunt_regex _) (by decide) h hl

/-! ### Runs over a text that ends with one of three capital letters -/

/-- The letters. -/
def tailC : List Char := ['A', 'N', 'O']

/-- A text that ends with one of them. -/
def Tailed (x : Str) : Prop := ∃ y z, x = y ++ [z] ∧ z ∈ tailC

/-- The run stays before the end of `p`. -/
def Short (p : Str) (l : List Ev) (r : Res) : Prop :=
  (∀ b q w, Ev.mark b b q w ∈ l → q.off < bytesOf p) ∧ ∀ v c fr, r = .ok v c fr → c.loc.off < bytesOf p

/-- A character of a name was tried at the end of `p`. -/
def IdHit (p : Str) (l : List Ev) : Prop := ∃ q, Ev.mark false false q "[a-z0-9_-]i".toList ∈ l ∧ q.off = bytesOf p

def Stays (p : Str) (l : List Ev) (r : Res) : Prop := Short p l r ∨ IdHit p l ∨ Beyond p l r

/-- Not the characters of names, no other class or literal ends with one of the letters. -/
def isStray : Act → PExpr → Bool
  | .onValue8, .plus (.cls ..) => true
  | _, _ => false

mutual
def shortE : PExpr → Bool
  | .action a e => isStray a e || shortE e
  | .seq es => shortL es
  | .choice es => shortL es
  | .label _ e => shortE e
  | .rule r => plainR r && (match r with | .ValueChars => false | _ => true)
  | .lit v ic _ => match v.getLast? with
    | none => false
    | some y => tailC.all fun z => y != if ic then asciiLower z else z
  | .cls cs rs ic inv _ => !ic && !inv && tailC.all fun z => !cs.contains z && !rs.any (fun p => p.1 ≤ z && z ≤ p.2)
  | .star e => shortE e
  | .plus e => shortE e
  | .opt e => shortE e
  | _ => false
def shortL : List PExpr → Bool
  | [] => true
  | e :: es => shortE e && shortL es
end

def Job.short : Job → Bool
  | .expr e _ => shortE e
  | .seq _ es _ _ => shortL es
  | .choice _ es => shortL es
  | .rep _ e _ _ => shortE e
  | .throw .. => false

def isName : Rule → Bool
  | .UnquotedFieldPiece => true
  | _ => false

theorem short_grammar (r : Rule) (h : shortE (.rule r) = true) (ht : isTok r = false) (hn : isName r = false) :
    shortE (grammar r) = true := by
  cases r <;> first | decide +kernel | (exfalso; revert h; decide +kernel) | (exfalso; revert ht; decide) | (exfalso; revert hn; decide)

theorem Tailed.ne {x : Str} (h : Tailed x) : x ≠ [] := by
  obtain ⟨y, z, rfl, -⟩ := h
  simp

theorem Tailed.drop {a c : Str} (h : Tailed (a ++ c)) (hc : c ≠ []) : Tailed c := by
  obtain ⟨y, z, h, hz⟩ := h
  obtain ⟨d, w, rfl⟩ : ∃ d w, c = d ++ [w] := ⟨_, _, (List.dropLast_append_getLast hc).symm⟩
  rw [← List.append_assoc] at h
  obtain ⟨-, h⟩ := List.append_inj' h rfl
  simp only [List.cons.injEq, and_true] at h
  exact ⟨d, w, rfl, h ▸ hz⟩

theorem bytesOf_ne {x : Str} (h : x ≠ []) : 0 < bytesOf x := by
  obtain ⟨y, z, rfl⟩ := List.exists_cons_of_ne_nil h
  exact bytesOf_pos

theorem Stays.inner {p : Str} {l l' : List Ev} {r r' : Res} (h : Stays p l r) (hl : ∀ ev, ev ∈ l → ev ∈ l')
    (hm : ∀ f i q w, Ev.mark f i q w ∈ l' → Ev.mark f i q w ∈ l) (hr : r.Eqv r') : Stays p l' r' := by
  have h1 : ∀ v c fr, r = .ok v c fr → ∃ v fr, r' = .ok v c fr := by
    rintro v c fr rfl
    cases r' with
    | ok v' c' fr' => cases hr; exact ⟨_, _, rfl⟩
    | fail _ => cases hr
    | panic _ _ => cases hr
  have h2 : ∀ v c fr, r' = .ok v c fr → ∃ v fr, r = .ok v c fr := by
    rintro v c fr rfl
    cases r with
    | ok v' c' fr' => cases hr; exact ⟨_, _, rfl⟩
    | fail _ => cases hr
    | panic _ _ => cases hr
  rcases h with h | ⟨q, h, ho⟩ | h
  · refine .inl ⟨fun b q w hq => h.1 b q w (hm _ _ _ _ hq), ?_⟩
    intro v c fr hc
    obtain ⟨v, fr, hc⟩ := h2 v c fr hc
    exact h.2 _ _ _ hc
  · exact .inr (.inl ⟨q, hl _ h, ho⟩)
  · exact .inr (.inr (Beyond.inner h hl h1))

theorem Stays.tick {p : Str} {l : List Ev} {r r' : Res} (h : Stays p l r) (hr : r.Eqv r') : Stays p (.tick :: l) r' :=
  h.inner (fun _ he => List.mem_cons_of_mem _ he) (fun _ _ _ _ hm => mem_tick_mark hm) hr

/-- A run whose tests succeed or are where it began, and that matches `a`. -/
theorem stays_ok {p pre x r0 a b : Str} {l : List Ev} {v : PV} {fr : VFrame} (hp : p = pre ++ x) (hs : x ++ r0 = a ++ b)
    (hx : a ≠ x) (hl : ∀ f q w, Ev.mark f f q w ∈ l → q.off ≤ bytesOf (pre ++ a)) :
    Stays p l (.ok v (cur (pre ++ a) b) fr) := by
  rcases within hs with ⟨c, rfl, rfl⟩ | hlt
  · left
    have : 0 < bytesOf c := bytesOf_ne (by rintro rfl; simp at hx)
    have hlt : bytesOf (pre ++ a) < bytesOf p := by
      rw [hp, bytesOf_append', bytesOf_append', bytesOf_append']
      omega
    refine ⟨fun f q w hm => Nat.lt_of_le_of_lt (hl f q w hm) hlt, ?_⟩
    intro v c fr h
    cases h
    rw [cur_off]
    exact hlt
  · exact .inr (.inr (beyond_ok hp hs hlt))

theorem stays_fail {p pre x r0 : Str} {l : List Ev} {d : Cursor} (hp : p = pre ++ x) (hx : x ≠ [])
    (hl : MarksAt (cur pre (x ++ r0)).loc l) : Stays p l (.fail d) := by
  left
  refine ⟨?_, fun _ _ _ h => by cases h⟩
  intro b q w hm
  rw [hl _ _ _ _ hm, cur_off, hp, bytesOf_append']
  have := bytesOf_ne hx
  omega

theorem cls_passes {ctx : Ctx} {cs : List Char} {rs : List (Char × Char)} {ic inv : Bool} {w : Str} {fr fr' : VFrame} {c c' : Cursor}
    {l : List Ev} {v : PV} (h : Big E ctx (.expr (.cls cs rs ic inv w) fr) c l (.ok v c' fr')) (hi : ctx.inv = false)
    (f : Bool) (q : Loc) (w' : Str) (hq : Ev.mark f f q w' ∈ l) : False := by
  cases h with
  | cls_ok e m =>
    rcases List.mem_append.1 (mem_tick_mark hq) with hq | hq
    · exact absurd hq (by unfold encErr; split <;> simp)
    · rw [hi] at hq
      simp only [List.mem_singleton, Ev.mark.injEq] at hq
      rw [hq.1] at hq
      cases hq.2.1

/-- The loop over a class of characters. -/
theorem loop_cls {ctx : Ctx} {cs : List Char} {rs : List (Char × Char)} {ic inv : Bool} {w : Str} {j : Job} {c : Cursor}
    {l : List Ev} {r : Res} (h : Big E ctx j c l r) {fr : VFrame} {one : Bool} {acc : List PV} {pre s : Str}
    (hj : j = .rep fr (.cls cs rs ic inv w) one acc) (hc : c = cur pre s) (hi : ctx.inv = false) :
    ∃ a b, s = a ++ b ∧ Ev.mark false false (locAt (pre ++ a) b) w ∈ l ∧
      (∀ f q w', Ev.mark f f q w' ∈ l → q = locAt (pre ++ a) b) ∧ (∀ v c fr, r = .ok v c fr → c = cur (pre ++ a) b) := by
  induction h generalizing acc pre s with
  | rep_next h1 h2 _ ih =>
    cases hj
    have no1 : ∀ f q w', Ev.mark f f q w' ∈ _ → False := cls_passes h1 hi
    subst hc
    obtain ⟨u, hu⟩ := h1.ok_adv
    obtain ⟨a, b, rfl, rfl⟩ := adv_cur hu
    obtain ⟨a', b', rfl, hm, hl, hr⟩ := ih rfl rfl hi
    rw [List.append_assoc] at hm hl hr
    refine ⟨a ++ a', b', by simp, List.mem_append_right _ hm, ?_, hr⟩
    intro f q w' hq
    rcases List.mem_append.1 hq with hq | hq
    · exact (no1 f q w' hq).elim
    · exact hl f q w' hq
  | rep_stop h1 _ _ =>
    cases hj
    subst hc
    have hb := h1.fail_back
    subst hb
    refine ⟨[], s, rfl, ?_, ?_, ?_⟩
    · cases h1 with
      | cls_fail h => rw [hi]; simp [cur]
    · intro f q w' hq
      rw [List.append_nil]
      exact h1.flatten rfl _ _ _ _ hq
    · intro v c fr h
      cases h
      simp
  | rep_fail h1 _ =>
    cases hj
    subst hc
    have hb := h1.fail_back
    subst hb
    refine ⟨[], s, rfl, ?_, ?_, fun _ _ _ h => by cases h⟩
    · cases h1 with
      | cls_fail h => rw [hi]; simp [cur]
    · intro f q w' hq
      rw [List.append_nil]
      exact h1.flatten rfl _ _ _ _ hq
  | rep_panic h _ => cases hj; cases h
  | _ => cases hj

theorem lit_passes {ctx : Ctx} {k w : Str} {ic : Bool} {fr fr' : VFrame} {c c' : Cursor}
    {l : List Ev} {v : PV} (h : Big E ctx (.expr (.lit k ic w) fr) c l (.ok v c' fr')) (hi : ctx.inv = false)
    (f : Bool) (q : Loc) (w' : Str) (hq : Ev.mark f f q w' ∈ l) : False := by
  cases h with
  | lit_ok e =>
    rcases List.mem_append.1 (mem_tick_mark hq) with hq | hq
    · exact absurd hq (fun hq => by cases in_litLoop (P := fun _ => false) e _ hq)
    · rw [hi] at hq
      simp only [List.mem_singleton, Ev.mark.injEq] at hq
      rw [hq.1] at hq
      cases hq.2.1

/-- A name. -/
theorem name_stays {fr : VFrame} {p pre x r0 : Str} {l : List Ev} {r : Res}
    (h : Big E ⟨false, []⟩ (.expr (grammar .UnquotedFieldPiece) fr) (cur pre (x ++ r0)) l r)
    (hl : errorsOf l = []) (hr : r.Calm) : Stays p l r := by
  have key : ∀ {l r}, Big E ⟨false, []⟩ (.expr (.plus (.cls ['_', '-'] [('a', 'z'), ('0', '9')] true false "[a-z0-9_-]i".toList)) fr)
      (cur pre (x ++ r0)) l r → Stays p l r := by
    intro l r h
    cases h with
    | plus h =>
    obtain ⟨a, b, hs, hm, hl, hr⟩ := loop_cls h rfl rfl rfl
    rcases Nat.lt_trichotomy (bytesOf (pre ++ a)) (bytesOf p) with hlt | he | hgt
    · left
      refine ⟨?_, ?_⟩
      · intro f q w hq
        rw [hl f q w (mem_tick_mark hq), locAt_off]
        exact hlt
      · intro v c fr h
        rw [hr v c fr h, cur_off]
        exact hlt
    · exact .inr (.inl ⟨_, List.mem_cons_of_mem _ hm, by rw [locAt_off, he]⟩)
    · exact .inr (.inr (.inl ⟨_, _, _, List.mem_cons_of_mem _ hm, by rw [locAt_off]; exact hgt⟩))
  cases h with
  | action_ok h _ => exact (key h).tick rfl
  | action_err h _ =>
    rw [errorsOf_cons_tick, errorsOf_append_nil] at hl
    cases hl.2
  | action_panic h _ => exact hr.elim
  | action_stop h hs => exact (key h).tick (.rfl' hr)

/-- What is no value. -/
theorem stray_stays {a : Act} {e : PExpr} (he : isStray a e = true) {fr : VFrame} {p pre x r0 : Str} {l : List Ev} {r : Res}
    (h : Big E ⟨false, []⟩ (.expr (.action a e) fr) (cur pre (x ++ r0)) l r) (hp : p = pre ++ x) (hx : x ≠ [])
    (hl : errorsOf l = []) (hr : r.Calm) : Stays p l r := by
  unfold isStray at he
  split at he
  swap
  · cases he
  cases h with
  | action_ok h ha =>
    exfalso
    simp only [runAct] at ha
    split at ha
    · cases ha
    · split at ha <;> cases ha
  | action_err h _ =>
    rw [errorsOf_cons_tick, errorsOf_append_nil] at hl
    cases hl.2
  | action_panic h _ => exact hr.elim
  | action_stop h hs =>
    cases r with
    | ok _ _ _ => exact hs.elim
    | panic _ _ => exact hr.elim
    | fail d =>
    cases h with
    | plus h =>
    obtain ⟨d', h⟩ := rep_fails h rfl rfl
    exact stays_fail hp hx (h.flatten rfl).tick.tick

/-- One thing after another. -/
theorem Stays.after {p pre x r0 : Str} {l l' : List Ev} {v : PV} {c' : Cursor} {fr : VFrame} {u : List Sym} {j : Job} {r : Res}
    (hu : Adv (cur pre (x ++ r0)) u c') (h : Stays p l (.ok v c' fr)) (hp : p = pre ++ x) (hx : Tailed x)
    (h2 : Big E ⟨false, []⟩ j c' l' r) (hj : j.plain = true) (hn : ∀ fr, j ≠ .choice fr []) (hl : errorsOf l' = []) (hr : r.Calm)
    (ih : ∀ {pre x r0 : Str}, c' = cur pre (x ++ r0) → p = pre ++ x → Tailed x → Stays p l' r) : Stays p (l ++ l') r := by
  obtain ⟨a, b, hs, rfl⟩ := adv_cur hu
  rcases h with h | ⟨q, h, ho⟩ | h
  · have hlt := h.2 _ _ _ rfl
    rw [cur_off] at hlt
    rcases within hs with ⟨c, rfl, rfl⟩ | hlen
    swap
    · have := bytesOf_lt hlen hs
      rw [hp, bytesOf_append', bytesOf_append'] at hlt
      omega
    have hc : c ≠ [] := by
      rintro rfl
      rw [hp, List.append_nil] at hlt
      omega
    rcases ih rfl (by rw [hp, List.append_assoc]) (hx.drop hc) with k | ⟨q, k, ho⟩ | k
    · refine .inl ⟨?_, k.2⟩
      intro f q w hq
      rcases List.mem_append.1 hq with hq | hq
      · exact h.1 _ _ _ hq
      · exact k.1 _ _ _ hq
    · exact .inr (.inl ⟨q, List.mem_append_right _ k, ho⟩)
    · exact .inr (.inr (Beyond.inner k (fun _ he => List.mem_append_right _ he) fun v c fr h => ⟨v, fr, h⟩))
  · exact .inr (.inl ⟨q, List.mem_append_left _ h, ho⟩)
  · exact .inr (.inr (h.after h2 rfl hj hn hl hr))

theorem Big.stays {ctx : Ctx} {j : Job} {c : Cursor} {l : List Ev} {r : Res} (h : Big E ctx j c l r) :
    ∀ {p pre x r0 : Str}, c = cur pre (x ++ r0) → p = pre ++ x → Tailed x → ctx = ⟨false, []⟩ → j.plain = true →
      j.short = true → errorsOf l = [] → r.Calm → Stays p l r := by
  induction h with
  | @action_ok ctx a e fr c l v c' fr' v' h ha ih =>
    intro p pre x r0 hc hp hx hi hj hs hl hr
    rw [Job.short, shortE, Bool.or_eq_true] at hs
    rcases hs with hs | hs
    · subst hi hc
      exact stray_stays hs (.action_ok h ha) hp hx.ne hl hr
    · exact (ih hc hp hx hi hj hs hl trivial).tick rfl
  | action_err h ha ih =>
    intro p pre x r0 hc hp hx hi hj hs hl hr
    rw [errorsOf_cons_tick, errorsOf_append_nil] at hl
    cases hl.2
  | action_panic h ha ih => intro p pre x r0 hc hp hx hi hj hs hl hr; exact hr.elim
  | action_stop h hst ih =>
    intro p pre x r0 hc hp hx hi hj hs hl hr
    rw [Job.short, shortE, Bool.or_eq_true] at hs
    rcases hs with hs | hs
    · subst hi hc
      exact stray_stays hs (.action_stop h hst) hp hx.ne hl hr
    · exact (ih hc hp hx hi hj hs hl hr).tick (.rfl' hr)
  | seq h ih =>
    intro p pre x r0 hc hp hx hi hj hs hl hr
    exact (ih hc hp hx hi hj hs hl hr).tick (.rfl' hr)
  | @seq_nil ctx st acc fr c =>
    intro p pre x r0 hc hp hx hi hj hs hl hr
    subst hc
    have := stays_ok (l := []) (v := .list acc) (fr := fr) (a := []) (b := x ++ r0) hp rfl (Ne.symm hx.ne) (fun _ _ _ h => by cases h)
    rw [List.append_nil] at this
    exact this
  | seq_cons h1 h2 ih1 ih2 =>
    intro p pre x r0 hc hp hx hi hj hs hl hr
    rw [Job.plain, plainL, Bool.and_eq_true] at hj
    rw [Job.short, shortL, Bool.and_eq_true] at hs
    rw [errorsOf_append_nil] at hl
    have k := ih1 hc hp hx hi hj.1 hs.1 hl.1 trivial
    obtain ⟨u, hu⟩ := h1.ok_adv
    subst hi hc
    exact k.after hu hp hx h2 hj.2 (fun _ h => by cases h) hl.2 hr fun hc hp hx => ih2 hc hp hx rfl hj.2 hs.2 hl.2 hr
  | seq_fail h ih =>
    intro p pre x r0 hc hp hx hi hj hs hl hr
    rw [Job.plain, plainL, Bool.and_eq_true] at hj
    rw [Job.short, shortL, Bool.and_eq_true] at hs
    exact (ih hc hp hx hi hj.1 hs.1 hl trivial).inner (fun _ h => h) (fun _ _ _ _ h => h) trivial
  | seq_panic h ih => intro p pre x r0 hc hp hx hi hj hs hl hr; exact hr.elim
  | choice h ih =>
    intro p pre x r0 hc hp hx hi hj hs hl hr
    rw [Job.plain, plainE, Bool.and_eq_true] at hj
    exact (ih hc hp hx hi hj.2 hs hl hr).tick (.rfl' hr)
  | choice_nil =>
    intro p pre x r0 hc hp hx hi hj hs hl hr
    exact stays_fail (r0 := r0) hp hx.ne .nil
  | choice_ok h ih =>
    intro p pre x r0 hc hp hx hi hj hs hl hr
    rw [Job.plain, plainL, Bool.and_eq_true] at hj
    rw [Job.short, shortL, Bool.and_eq_true] at hs
    exact (ih hc hp hx hi hj.1 hs.1 hl trivial).inner (fun _ h => h) (fun _ _ _ _ h => h) rfl
  | choice_next h1 h2 ih1 ih2 =>
    intro p pre x r0 hc hp hx hi hj hs hl hr
    rw [Job.plain, plainL, Bool.and_eq_true] at hj
    rw [Job.short, shortL, Bool.and_eq_true] at hs
    rw [errorsOf_append_nil] at hl
    have hb := h1.fail_back
    subst hb
    rcases ih1 hc hp hx hi hj.1 hs.1 hl.1 trivial with h | ⟨q, h, ho⟩ | h
    · rcases ih2 hc hp hx hi hj.2 hs.2 hl.2 hr with k | ⟨q, k, ho⟩ | k
      · refine .inl ⟨?_, k.2⟩
        intro f q w hq
        rcases List.mem_append.1 hq with hq | hq
        · exact h.1 _ _ _ hq
        · exact k.1 _ _ _ hq
      · exact .inr (.inl ⟨q, List.mem_append_right _ k, ho⟩)
      · exact .inr (.inr (Beyond.inner k (fun _ he => List.mem_append_right _ he) fun v c fr h => ⟨v, fr, h⟩))
    · exact .inr (.inl ⟨q, List.mem_append_left _ h, ho⟩)
    · exact .inr (.inr (Beyond.inner h (fun _ he => List.mem_append_left _ he) fun v c fr h => by cases h))
  | choice_panic h ih => intro p pre x r0 hc hp hx hi hj hs hl hr; exact hr.elim
  | label_ok h ih =>
    intro p pre x r0 hc hp hx hi hj hs hl hr
    exact (ih hc hp hx hi hj hs hl trivial).tick rfl
  | label_stop h hst ih =>
    intro p pre x r0 hc hp hx hi hj hs hl hr
    exact (ih hc hp hx hi hj hs hl hr).tick (.rfl' hr)
  | @rule_ok ctx y fr c l v c' fr' h ih =>
    intro p pre x r0 hc hp hx hi hj hs hl hr
    cases ht : isTok y
    · cases hn : isName y
      · exact (ih hc hp hx hi (plain_grammar _ hj ht) (short_grammar _ hs ht hn) hl trivial).tick rfl
      · cases y <;> first | (cases hn; done) | skip
        subst hi hc
        exact (name_stays h hl trivial).tick rfl
    · subst hc
      rcases tok_tests ht (.rule_ok (fr := fr) h) hl trivial with ⟨-, _, h⟩ | ⟨a, b, v, fr', q, e, hq, hr, hm⟩
      · cases h
      · rw [hr]
        refine stays_ok hp (a := a ++ [q]) (b := b) (by rw [e]; simp) ?_ (fun f q w h => hm _ _ _ _ h)
        rintro rfl
        obtain ⟨y, z, hz, hm⟩ := hx
        have := (List.append_inj' hz rfl).2
        cases this
        rcases hq with rfl | rfl <;> revert hm <;> decide
  | @rule_stop ctx y fr c l r h hst ih =>
    intro p pre x r0 hc hp hx hi hj hs hl hr
    cases ht : isTok y
    · cases hn : isName y
      · exact (ih hc hp hx hi (plain_grammar _ hj ht) (short_grammar _ hs ht hn) hl hr).tick (.rfl' hr)
      · cases y <;> first | (cases hn; done) | skip
        subst hi hc
        exact (name_stays h hl hr).tick (.rfl' hr)
    · subst hc
      rcases tok_tests ht (.rule_stop (fr := fr) h hst) hl hr with ⟨hm, _, rfl⟩ | ⟨a, b, v, fr', q, e, hq, rfl, hm⟩
      · exact stays_fail hp hx.ne hm
      · exact hst.elim
  | @lit_ok ctx k ic w fr c l c' h =>
    intro p pre x r0 hc hp hx hi hj hs hl hr
    subst hi hc
    have hb := Big.lit_ok (E := E) (ctx := ⟨false, []⟩) (w := w) (fr := fr) h
    rcases lit_run hb with ⟨a, b, v, e, ha, hr⟩ | ⟨-, h, -⟩
    · rw [hr] at hb ⊢
      refine stays_ok hp e ?_ (fun f q w h => (lit_passes hb rfl f q w h).elim)
      rintro rfl
      obtain ⟨y, z, rfl, hz⟩ := hx
      rw [← ha, Job.short, shortE, List.map_append, List.map_cons, List.map_nil, List.getLast?_concat] at hs
      simp only [List.all_eq_true] at hs
      have hs := hs z hz
      cases ic
      · simp at hs
      · simp only [if_true] at hs
        rw [goLower_ascii (by revert hz; unfold tailC; intro hz; simp only [List.mem_cons, List.not_mem_nil, or_false] at hz; rcases hz with rfl | rfl | rfl <;> decide)] at hs
        simp at hs
    · cases h
  | @lit_fail ctx k ic w fr c l h =>
    intro p pre x r0 hc hp hx hi hj hs hl hr
    subst hc
    exact stays_fail hp hx.ne ((Big.lit_fail (E := E) (ctx := ctx) (w := w) (fr := fr) h).flatten rfl)
  | @cls_ok ctx cs rs ic inv w fr c s t e m =>
    intro p pre x r0 hc hp hx hi hj hs hl hr
    subst hi hc
    have hb := Big.cls_ok (E := E) (ctx := ⟨false, []⟩) (w := w) (fr := fr) e m
    obtain ⟨y, s', hy⟩ : ∃ y s', x ++ r0 = y :: s' := by
      cases h : x ++ r0 with
      | nil => rw [h] at e; cases e
      | cons y s' => exact ⟨y, s', rfl⟩
    rw [hy] at e hb ⊢
    rw [cur_next] at hb ⊢
    cases e
    refine stays_ok (a := [y]) (b := s') hp hy ?_ (fun f q w h => (cls_passes hb rfl f q w h).elim)
    rintro rfl
    obtain ⟨y', z, hz, hm⟩ := hx
    have : y = z := by
      have := (List.append_inj' (show [] ++ [y] = y' ++ [z] from hz) rfl).2
      simpa using this
    subst this
    simp only [Job.short, shortE, Bool.and_eq_true, List.all_eq_true, Bool.not_eq_true'] at hs
    obtain ⟨⟨rfl, rfl⟩, hs⟩ := hs
    have hs := hs y hm
    simp only [clsMatch, Bool.false_eq_true, if_false, Sym.rune, hs.1, hs.2] at m
    cases m
  | @cls_fail ctx cs rs ic inv w fr c h =>
    intro p pre x r0 hc hp hx hi hj hs hl hr
    subst hc
    exact stays_fail hp hx.ne ((Big.cls_fail (E := E) (ctx := ctx) (w := w) (fr := fr) h).flatten rfl)
  | star h ih =>
    intro p pre x r0 hc hp hx hi hj hs hl hr
    exact (ih hc hp hx hi hj hs hl hr).tick (.rfl' hr)
  | plus h ih =>
    intro p pre x r0 hc hp hx hi hj hs hl hr
    exact (ih hc hp hx hi hj hs hl hr).tick (.rfl' hr)
  | rep_next h1 h2 ih1 ih2 =>
    intro p pre x r0 hc hp hx hi hj hs hl hr
    rw [errorsOf_append_nil] at hl
    have k := ih1 hc hp hx hi hj hs hl.1 trivial
    obtain ⟨u, hu⟩ := h1.ok_adv
    subst hi hc
    exact k.after hu hp hx h2 hj (fun _ h => by cases h) hl.2 hr fun hc hp hx => ih2 hc hp hx rfl hj hs hl.2 hr
  | @rep_stop ctx fr e one acc c l c' h hcond ih =>
    intro p pre x r0 hc hp hx hi hj hs hl hr
    have k := ih hc hp hx hi hj hs hl trivial
    have hb := h.fail_back
    subst hb hc
    rcases k with k | k | k
    · refine .inl ⟨k.1, ?_⟩
      intro v c fr h
      cases h
      rw [cur_off, hp, bytesOf_append']
      have := bytesOf_ne hx.ne
      omega
    · exact .inr (.inl k)
    · exact .inr (.inr (Beyond.inner k (fun _ he => he) fun v c fr h => by cases h))
  | rep_fail h ih =>
    intro p pre x r0 hc hp hx hi hj hs hl hr
    exact ih hc hp hx hi hj hs hl trivial
  | rep_panic h ih => intro p pre x r0 hc hp hx hi hj hs hl hr; exact hr.elim
  | opt_ok h ih =>
    intro p pre x r0 hc hp hx hi hj hs hl hr
    exact (ih hc hp hx hi hj hs hl trivial).tick rfl
  | @opt_none ctx e fr c l c' h ih =>
    intro p pre x r0 hc hp hx hi hj hs hl hr
    have k := (ih hc hp hx hi hj hs hl trivial).tick (r' := .fail c') trivial
    have hb := h.fail_back
    subst hb hc
    rcases k with k | k | k
    · refine .inl ⟨k.1, ?_⟩
      intro v c fr h
      cases h
      rw [cur_off, hp, bytesOf_append']
      have := bytesOf_ne hx.ne
      omega
    · exact .inr (.inl k)
    · exact .inr (.inr (Beyond.inner k (fun _ he => he) fun v c fr h => by cases h))
  | opt_panic h ih => intro p pre x r0 hc hp hx hi hj hs hl hr; exact hr.elim
  | any_ok _ => intro p pre x r0 hc hp hx hi hj; cases hj
  | any_eof _ => intro p pre x r0 hc hp hx hi hj; cases hj
  | not_ok _ _ => intro p pre x r0 hc hp hx hi hj; cases hj
  | not_fail _ _ => intro p pre x r0 hc hp hx hi hj; cases hj
  | not_panic _ _ => intro p pre x r0 hc hp hx hi hj; cases hj
  | recover _ _ => intro p pre x r0 hc hp hx hi hj; cases hj
  | throw _ _ => intro p pre x r0 hc hp hx hi hj; cases hj
  | throw_nil => intro p pre x r0 hc hp hx hi hj; cases hj
  | throw_skip _ _ _ => intro p pre x r0 hc hp hx hi hj; cases hj
  | throw_ok _ _ => intro p pre x r0 hc hp hx hi hj; cases hj
  | throw_next _ _ _ _ => intro p pre x r0 hc hp hx hi hj; cases hj
  | throw_panic _ _ => intro p pre x r0 hc hp hx hi hj; cases hj
  | state => intro p pre x r0 hc hp hx hi hj; cases hj

end Aql
