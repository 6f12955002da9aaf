import Verif.Proofs.Parser
import Verif.Proofs.Cost
/-!
Upper bounds on the number of evaluations for the rules that are not recursive: a polynomial of degree
two in the number of characters left.
-/

namespace Aql

variable {E : Env}

/-- Rules that do not lead back to themselves. -/
def rflat : Rule → Bool
  | .Start | .Query | .OrClause | .AndClause | .NotClause | .Comparison => false
  | _ => true

/-- Coefficient of the bound for a rule. -/
def rcoef : Rule → Nat
  | .EscapedChar | .SingleCharEscape | .HexDigit | .ValueChars | .logicalOR | .logicalAND | .EOL |
    .ErrUntermStr | .ErrUntermRegex => 1
  | .Digit4 => 5 | .Digit2 => 3 | .ws | .space => 2 | .EOF => 2 | .Star => 2
  | .dateFullyear => 6 | .dateMonth | .dateMday | .timeHour | .timeMinute | .timeSecond => 4
  | .UnquotedFieldPiece => 3 | .EndingQuote | .EndingSlash => 5
  | .UnicodeEscape => 10 | .EscapeSequence => 14 | .RegexEscape => 9 | .RegexChar => 22
  | .BoolValue => 4 | .FloatValue => 9 | .IntValue => 6 | .Octet => 6 | .CIDRBlock => 5
  | .timeSecfrac => 4 | .timeNumoffset => 15 | .timeOffset => 18 | .partialTime => 25 | .fullTime => 46
  | .fullDate => 20 | .dateTime => 72 | .Timestamp => 96 | .IPValue => 41 | .BareValue => 165
  | .logicalNOT => 12 | .opNoArgs => 4 | .opComp => 8
  | .QuotedValue => 40 | .RegexValue => 40 | .QuotedFieldPiece => 43 | .FieldPiece => 53
  | .Field => 115 | .Value => 265 | .ValueList => 830
  | _ => 0

/-- Degree of the bound for a rule. -/
def rdeg : Rule → Nat
  | .ws | .space | .UnquotedFieldPiece | .FloatValue | .IntValue | .timeSecfrac | .QuotedValue
  | .RegexValue | .QuotedFieldPiece | .FieldPiece | .Value | .BareValue | .partialTime | .fullTime
  | .dateTime | .Timestamp | .logicalNOT => 1
  | .Field | .ValueList => 2
  | _ => 0

mutual
def coef : PExpr → Nat
  | .action _ e => coef e + 1
  | .seq es => coefs es + 1
  | .choice es => coefs es + 1
  | .label _ e => coef e + 1
  | .rule r => rcoef r + 1
  | .lit .. => 1
  | .cls .. => 1
  | .any => 1
  | .not e => coef e + 1
  | .star e => coef e + 1
  | .plus e => coef e + 1
  | .opt e => coef e + 1
  | .recover _ e _ => coef e + 1
  | .throw _ => 3
  | .state _ => 1
def coefs : List PExpr → Nat
  | [] => 0
  | e :: es => coef e + coefs es
end

mutual
def deg : PExpr → Nat
  | .action _ e => deg e
  | .seq es => degs es
  | .choice es => degs es
  | .label _ e => deg e
  | .rule r => rdeg r
  | .not e => deg e
  | .star e => deg e + 1
  | .plus e => deg e + 1
  | .opt e => deg e
  | .recover _ e _ => deg e
  | _ => 0
def degs : List PExpr → Nat
  | [] => 0
  | e :: es => max (deg e) (degs es)
end

/-- The two expressions used for recovery. -/
def handler : PExpr → Bool
  | .rule .ErrUntermStr | .rule .ErrUntermRegex => true
  | _ => false

mutual
/-- Only rules that are not recursive, loops that read, and the usual recovery expressions. -/
def flatE : PExpr → Bool
  | .action _ e => flatE e
  | .seq es => flats es
  | .choice es => flats es
  | .label _ e => flatE e
  | .rule r => rflat r
  | .not e => flatE e
  | .star e => flatE e && !nul e
  | .plus e => flatE e && !nul e
  | .opt e => flatE e
  | .recover _ e h => flatE e && handler h
  | _ => true
def flats : List PExpr → Bool
  | [] => true
  | e :: es => flatE e && flats es
end

theorem grammar_flat (r : Rule) (h : rflat r = true) : flatE (grammar r) = true := by
  cases r <;> first | rfl | cases h

theorem grammar_coef (r : Rule) (h : rflat r = true) :
    coef (grammar r) ≤ rcoef r ∧ deg (grammar r) ≤ rdeg r := by
  cases r <;> first | (constructor <;> decide) | cases h

/-- Bound in terms of `q`, more than the number of characters left. -/
def Job.most (q : Nat) (j : Job) (c : Cursor) : Nat :=
  match j with
  | .expr e _ => coef e * q ^ deg e
  | .seq _ es _ _ => coefs es * q ^ degs es
  | .choice _ es => coefs es * q ^ degs es
  | .rep _ e _ _ => (c.rest.length + 1) * (coef e * q ^ deg e)
  | .throw .. => 2

def Job.flat : Job → Bool
  | .expr e _ => flatE e
  | .seq _ es _ _ => flats es
  | .choice _ es => flats es
  | .rep _ e _ _ => flatE e && !Aql.nul e
  | .throw _ _ rs => rs.all fun x => handler x.2

theorem mix {q a b m n : Nat} (hq : 1 ≤ q) : a * q ^ m + b * q ^ n ≤ (a + b) * q ^ max m n := by
  rw [Nat.add_mul]
  exact Nat.add_le_add (Nat.mul_le_mul_left _ (Nat.pow_le_pow_right hq (le_max_left ..)))
    (Nat.mul_le_mul_left _ (Nat.pow_le_pow_right hq (le_max_right ..)))

theorem one_more {q a m k : Nat} (hq : 1 ≤ q) (h : k ≤ a * q ^ m) : k + 1 ≤ (a + 1) * q ^ m := by
  rw [Nat.add_mul]
  have := Nat.one_le_pow m q hq
  omega

theorem ticks_encErr (c : Cursor) : ticks (encErr c) = 0 := by
  unfold encErr
  split <;> rfl

theorem ticks_litLoop {ic : Bool} {s : Str} {c : Cursor} {l : List Ev} {o : Option Cursor}
    (h : litLoop E ic s c = (l, o)) : ticks l = 0 := by
  induction s generalizing c l o with
  | nil => cases h; rfl
  | cons w ws ih =>
    unfold litLoop at h
    split at h
    · cases h; rfl
    · rename_i s u hr
      by_cases hw : (if ic = true then goLower E s.rune else s.rune) = w
      · rw [if_pos hw] at h
        rcases h2 : litLoop E ic ws c.next with ⟨l2, o2⟩
        rw [h2] at h
        cases h
        rw [ticks_append, ticks_encErr, ih h2]
      · rw [if_neg hw] at h
        cases h; rfl

theorem ticks_mark (b b' : Bool) (p : Loc) (w : Str) : ticks [Ev.mark b b' p w] = 0 := rfl

/-- A recovery expression takes two evaluations and succeeds. -/
theorem handler_run {ctx : Ctx} {h : PExpr} {fr : VFrame} {c : Cursor} {l : List Ev} {r : Res}
    (hb : Big E ctx (.expr h fr) c l r) (hh : handler h = true) :
    ticks l = 2 ∧ ∃ v c' fr', r = .ok v c' fr' := by
  unfold handler at hh
  split at hh
  · cases hb with
    | rule_ok h => cases h; exact ⟨rfl, _, _, _, rfl⟩
    | rule_stop h hs => cases h; exact hs.elim
  · cases hb with
    | rule_ok h => cases h; exact ⟨rfl, _, _, _, rfl⟩
    | rule_stop h hs => cases h; exact hs.elim
  · cases hh

/-- The bound for expressions without recursive rules. -/
theorem Big.flat_ticks {ctx : Ctx} {j : Job} {c : Cursor} {l : List Ev} {r : Res} (h : Big E ctx j c l r)
    {q : Nat} : j.flat = true → (ctx.recov.all fun x => handler x.2) = true → c.rest.length + 1 ≤ q →
      ticks l ≤ j.most q c := by
  induction h with
  | action_ok h ha ih =>
    intro hj hc hq
    rw [ticks_cons]
    exact one_more (by omega) (ih hj hc hq)
  | action_err h ha ih =>
    intro hj hc hq
    rw [ticks_cons, ticks_append]
    exact one_more (by omega) (ih hj hc hq)
  | action_panic h ha ih =>
    intro hj hc hq
    rw [ticks_cons]
    exact one_more (by omega) (ih hj hc hq)
  | action_stop h hs ih =>
    intro hj hc hq
    rw [ticks_cons]
    exact one_more (by omega) (ih hj hc hq)
  | seq h ih =>
    intro hj hc hq
    rw [ticks_cons]
    exact one_more (by omega) (ih hj hc hq)
  | seq_nil => intro hj hc hq; exact Nat.zero_le _
  | seq_cons h1 h2 ih1 ih2 =>
    intro hj hc hq
    rw [Job.flat, flats, Bool.and_eq_true] at hj
    obtain ⟨t, ht⟩ := h1.ok_adv
    have := ht.length_le
    have a := ih1 hj.1 hc hq
    have b := ih2 hj.2 hc (by omega)
    rw [ticks_append]
    exact (Nat.add_le_add a b).trans (mix (by omega))
  | seq_fail h ih =>
    intro hj hc hq
    rw [Job.flat, flats, Bool.and_eq_true] at hj
    exact (ih hj.1 hc hq).trans ((Nat.le_add_right _ _).trans (mix (by omega)))
  | seq_panic h ih =>
    intro hj hc hq
    rw [Job.flat, flats, Bool.and_eq_true] at hj
    exact (ih hj.1 hc hq).trans ((Nat.le_add_right _ _).trans (mix (by omega)))
  | choice h ih =>
    intro hj hc hq
    rw [ticks_cons]
    exact one_more (by omega) (ih hj hc hq)
  | choice_nil => intro hj hc hq; exact Nat.zero_le _
  | choice_ok h ih =>
    intro hj hc hq
    rw [Job.flat, flats, Bool.and_eq_true] at hj
    exact (ih hj.1 hc hq).trans ((Nat.le_add_right _ _).trans (mix (by omega)))
  | choice_next h1 h2 ih1 ih2 =>
    intro hj hc hq
    rw [Job.flat, flats, Bool.and_eq_true] at hj
    have hb := h1.fail_back
    subst hb
    have a := ih1 hj.1 hc hq
    have b := ih2 hj.2 hc hq
    rw [ticks_append]
    exact (Nat.add_le_add a b).trans (mix (by omega))
  | choice_panic h ih =>
    intro hj hc hq
    rw [Job.flat, flats, Bool.and_eq_true] at hj
    exact (ih hj.1 hc hq).trans ((Nat.le_add_right _ _).trans (mix (by omega)))
  | label_ok h ih =>
    intro hj hc hq
    rw [ticks_cons]
    exact one_more (by omega) (ih hj hc hq)
  | label_stop h hs ih =>
    intro hj hc hq
    rw [ticks_cons]
    exact one_more (by omega) (ih hj hc hq)
  | @rule_ok _ x _ _ _ _ _ _ h ih =>
    intro hj hc hq
    rw [ticks_cons]
    have hq1 : 1 ≤ q := by omega
    refine one_more hq1 ((ih (grammar_flat x hj) hc hq).trans ?_)
    obtain ⟨h1, h2⟩ := grammar_coef x hj
    exact Nat.mul_le_mul h1 (Nat.pow_le_pow_right hq1 h2)
  | @rule_stop _ x _ _ _ _ h hs ih =>
    intro hj hc hq
    rw [ticks_cons]
    have hq1 : 1 ≤ q := by omega
    refine one_more hq1 ((ih (grammar_flat x hj) hc hq).trans ?_)
    obtain ⟨h1, h2⟩ := grammar_coef x hj
    exact Nat.mul_le_mul h1 (Nat.pow_le_pow_right hq1 h2)
  | lit_ok h =>
    intro hj hc hq
    rw [ticks_cons, ticks_append, ticks_litLoop h, ticks_mark]
    simp [Job.most, coef, deg]
  | lit_fail h =>
    intro hj hc hq
    rw [ticks_cons, ticks_append, ticks_litLoop h, ticks_mark]
    simp [Job.most, coef, deg]
  | cls_ok hr hm =>
    intro hj hc hq
    rw [ticks_cons, ticks_append, ticks_encErr, ticks_mark]
    simp [Job.most, coef, deg]
  | cls_fail h =>
    intro hj hc hq
    rw [ticks_cons, ticks_mark]
    simp [Job.most, coef, deg]
  | any_ok hr =>
    intro hj hc hq
    rw [ticks_cons, ticks_append, ticks_encErr, ticks_mark]
    simp [Job.most, coef, deg]
  | any_eof hr =>
    intro hj hc hq
    rw [ticks_cons, ticks_mark]
    simp [Job.most, coef, deg]
  | not_ok h ih =>
    intro hj hc hq
    rw [ticks_cons]
    exact one_more (by omega) (ih hj hc hq)
  | not_fail h ih =>
    intro hj hc hq
    rw [ticks_cons]
    exact one_more (by omega) (ih hj hc hq)
  | not_panic h ih =>
    intro hj hc hq
    rw [ticks_cons]
    exact one_more (by omega) (ih hj hc hq)
  | @star _ e _ c _ _ h ih =>
    intro hj hc hq
    rw [ticks_cons]
    refine one_more (by omega) ((ih hj hc hq).trans ?_)
    calc (c.rest.length + 1) * (coef e * q ^ deg e) ≤ q * (coef e * q ^ deg e) := Nat.mul_le_mul_right _ hq
      _ = coef e * q ^ (deg e + 1) := by ring
  | @plus _ e _ c _ _ h ih =>
    intro hj hc hq
    rw [ticks_cons]
    refine one_more (by omega) ((ih hj hc hq).trans ?_)
    calc (c.rest.length + 1) * (coef e * q ^ deg e) ≤ q * (coef e * q ^ deg e) := Nat.mul_le_mul_right _ hq
      _ = coef e * q ^ (deg e + 1) := by ring
  | @rep_next _ _ e _ _ c _ _ c' _ _ _ h1 h2 ih1 ih2 =>
    intro hj hc hq
    have hj' := hj
    rw [Job.flat, Bool.and_eq_true, Bool.not_eq_true'] at hj
    have hlt := h1.consumes _ _ _ rfl hj.2
    have a := ih1 hj.1 hc hq
    have b := ih2 hj' hc (by omega)
    rw [ticks_append]
    refine (Nat.add_le_add a b).trans ?_
    change coef e * q ^ deg e + (c'.rest.length + 1) * (coef e * q ^ deg e) ≤ _
    calc _ = (c'.rest.length + 1 + 1) * (coef e * q ^ deg e) := by ring
      _ ≤ (c.rest.length + 1) * (coef e * q ^ deg e) := Nat.mul_le_mul_right _ (by omega)
  | rep_stop h hcond ih =>
    intro hj hc hq
    rw [Job.flat, Bool.and_eq_true, Bool.not_eq_true'] at hj
    exact (ih hj.1 hc hq).trans (Nat.le_mul_of_pos_left _ (by omega))
  | rep_fail h ih =>
    intro hj hc hq
    rw [Job.flat, Bool.and_eq_true, Bool.not_eq_true'] at hj
    exact (ih hj.1 hc hq).trans (Nat.le_mul_of_pos_left _ (by omega))
  | rep_panic h ih =>
    intro hj hc hq
    rw [Job.flat, Bool.and_eq_true, Bool.not_eq_true'] at hj
    exact (ih hj.1 hc hq).trans (Nat.le_mul_of_pos_left _ (by omega))
  | opt_ok h ih =>
    intro hj hc hq
    rw [ticks_cons]
    exact one_more (by omega) (ih hj hc hq)
  | opt_none h ih =>
    intro hj hc hq
    rw [ticks_cons]
    exact one_more (by omega) (ih hj hc hq)
  | opt_panic h ih =>
    intro hj hc hq
    rw [ticks_cons]
    exact one_more (by omega) (ih hj hc hq)
  | recover h ih =>
    intro hj hc hq
    rw [Job.flat, flatE, Bool.and_eq_true] at hj
    rw [ticks_cons]
    refine one_more (by omega) (ih hj.1 ?_ hq)
    simp only [List.all_cons, Bool.and_eq_true]
    exact ⟨hj.2, hc⟩
  | throw h ih =>
    intro hj hc hq
    have := ih hc hc hq
    rw [ticks_cons]
    simp only [Job.most, coef, deg, pow_zero] at *
    omega
  | throw_nil => intro hj hc hq; exact Nat.zero_le _
  | throw_skip hne h ih =>
    intro hj hc hq
    simp only [Job.flat, List.all_cons, Bool.and_eq_true] at hj
    exact ih hj.2 hc hq
  | throw_ok h ih =>
    intro hj hc hq
    simp only [Job.flat, List.all_cons, Bool.and_eq_true] at hj
    exact (handler_run h hj.1).1.le
  | throw_next h1 h2 ih1 ih2 =>
    intro hj hc hq
    simp only [Job.flat, List.all_cons, Bool.and_eq_true] at hj
    obtain ⟨-, v, c', fr', h⟩ := handler_run h1 hj.1
    cases h
  | throw_panic h ih =>
    intro hj hc hq
    simp only [Job.flat, List.all_cons, Bool.and_eq_true] at hj
    exact (handler_run h hj.1).1.le
  | state =>
    intro hj hc hq
    simp [ticks, Job.most, coef, deg]

end Aql
