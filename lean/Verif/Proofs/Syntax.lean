import Verif.Proofs.LexValue
/-!
Clean runs of the rules for values, value lists, fields and operators.
-/

namespace Aql

open Spec

variable {E : Env} {ctx : Ctx} {fr fr' : VFrame} {pre s a b : Str} {v : PV}

/-! ### Values -/

/-- First character of a literal. -/
def LitHead (c : Char) : Prop := c = '"' ∨ c = '/' ∨ Dig c ∨ c = '-' ∨ c = 't' ∨ c = 'f'

instance (c : Char) : Decidable (LitHead c) := by unfold LitHead; infer_instance

theorem digits_cons {p : Str} (h : AllDigits p) (hp : p ≠ []) (t : Str) : ∃ c u, p ++ t = c :: u ∧ Dig c := by
  cases p with
  | nil => exact absurd rfl hp
  | cons c p => exact ⟨c, p ++ t, rfl, h c (by simp)⟩

theorem date_cons {x : Date} (h : DateText a x) (t : Str) : ∃ c u, a ++ t = c :: u ∧ Dig c := by
  obtain ⟨p, q, r, hp, hp4, hq, hq2, hr, hr2, rfl, -⟩ := h
  rw [List.append_assoc]
  exact digits_cons hp (by rintro rfl; cases hp4) _

theorem stamp_cons {i : Int} (h : StampText a i) : ∃ c u, a = c :: u ∧ Dig c := by
  obtain ⟨dt, x, n, ct, secs, ft, ns, zt, off, h1, h2, h3, h4, h5, h6, rfl, rfl⟩ := h
  exact date_cons h1 _

theorem day_cons {i : Int} (h : DayText a i) : ∃ c u, a = c :: u ∧ Dig c := by
  obtain ⟨x, h, -⟩ := h
  simpa using date_cons h []

theorem addr_cons {x : Nat} (h : AddrText a x) (t : Str) : ∃ c u, a ++ t = c :: u ∧ Dig c := by
  obtain ⟨w, x, y, z, hw, hx, hy, hz, rfl, -⟩ := h
  rw [List.append_assoc]
  exact digits_cons (fun c hc => (isDig_iff c).1 (numeral_digits w c hc)) (numeral_ne_nil w) _

theorem number_cons {m p : Str} (hm : Minus m) (h : AllDigits p) (hp : p ≠ []) (t : Str) :
    ∃ c u, m ++ (p ++ t) = c :: u ∧ (Dig c ∨ c = '-') := by
  rcases hm with rfl | rfl
  · obtain ⟨c, u, h, hc⟩ := digits_cons h hp t
    exact ⟨c, u, h, .inl hc⟩
  · exact ⟨'-', _, rfl, .inr rfl⟩

theorem lit_cons {x : Val} (h : Lit E pre a x) : ∃ c u, a = c :: u ∧ LitHead c := by
  cases h with
  | string _ h => exact ⟨_, _, h, .inl rfl⟩
  | regex _ h => exact ⟨_, _, h, .inr (.inl rfl)⟩
  | stamp h => obtain ⟨c, u, h, hc⟩ := stamp_cons h; exact ⟨c, u, h, .inr (.inr (.inl hc))⟩
  | day h => obtain ⟨c, u, h, hc⟩ := day_cons h; exact ⟨c, u, h, .inr (.inr (.inl hc))⟩
  | address h =>
    obtain ⟨c, u, h, hc⟩ := addr_cons h []
    exact ⟨c, u, by simpa using h, .inr (.inr (.inl hc))⟩
  | block h _ ha =>
    obtain ⟨c, u, h, hc⟩ := addr_cons h _
    exact ⟨c, u, ha.trans h, .inr (.inr (.inl hc))⟩
  | float hm hp hp2 _ _ ha =>
    obtain ⟨c, u, h, hc⟩ := number_cons hm hp2 hp _
    refine ⟨c, u, ha.trans h, ?_⟩
    unfold LitHead; tauto
  | @int m p _ _ hm hp hp2 ha =>
    obtain ⟨c, u, h, hc⟩ := number_cons hm hp2 hp []
    refine ⟨c, u, ha.trans (by simpa using h), ?_⟩
    unfold LitHead; tauto
  | true_ => exact ⟨_, _, rfl, by decide⟩
  | false_ => exact ⟨_, _, rfl, by decide⟩

theorem lit_noHead {x : Val} {p : Char → Prop} (h : Lit E pre a x) (hp : ∀ c, LitHead c → ¬ p c) :
    NoHead p (a ++ b) := by
  obtain ⟨c, u, rfl, hc⟩ := lit_cons h
  rw [List.cons_append, noHead_cons]
  exact hp c hc

theorem bareValue_no {x : Rule} (h : x ∈ [Rule.Timestamp, .IPValue, .FloatValue, .IntValue])
    (h1 : NoHead Dig s) (h2 : NoHead (· = '-') s) : RuleNo E ctx x pre s := by
  simp only [List.mem_cons, List.not_mem_nil, or_false] at h
  rcases h with rfl | rfl | rfl | rfl
  · exact timestamp_no (by simpa using fullDate_no (ds := []) (t := s) (by simp [AllDigits]) h1 (by simp))
  · unfold RuleNo
    simp only [grammar, no_action, no_seq, NoS, noR]
    exact .inl (octet_no h1)
  · exact float_no h1 h2
  · exact int_no h1 h2

theorem value_of_bare {x : Val} (h : RuleOk E ctx .BareValue pre (a ++ b) (.val x) a b)
    (h1 : NoHead (· = '"') (a ++ b)) (h2 : NoHead (· = '/') (a ++ b)) :
    RuleOk E ctx .Value pre (a ++ b) (.val x) a b := by
  refine ⟨[], ?_⟩
  simp only [grammar, ok_choice, OkC, ok_action, ok_label]
  exact ⟨trivial, .inl ⟨_, _, ⟨rfl, _, rfl, .inr ⟨noR.2 (rule_quoted_no h1), .inr ⟨noR.2 (rule_regex_no h2),
    .inl ⟨[], okR.2 ⟨rfl, h⟩⟩⟩⟩⟩, rfl⟩⟩

/-- An address does not look like a date. -/
theorem addr_no {x : Nat} (h : AddrText a x) (t : Str) : RuleNo E ctx .Timestamp pre (a ++ t) := by
  obtain ⟨w, x, y, z, hw, hx, hy, hz, rfl, -⟩ := h
  refine timestamp_no ?_
  rw [List.append_assoc]
  refine fullDate_no (fun c hc => (isDig_iff c).1 (numeral_digits w c hc)) ?_ fun _ => ?_
  · rw [List.cons_append, noHead_cons]; decide
  · rw [List.cons_append, noHead_cons]; decide

theorem lit_value {x : Val} (h : Lit E pre a x) (hb : FLit b) : RuleOk E ctx .Value pre (a ++ b) (.val x) a b := by
  have h0 := h
  have bare : ∀ {ctx : Ctx}, OkC E ctx [.rule .Timestamp, .rule .IPValue, .rule .FloatValue, .rule .IntValue,
      .rule .BoolValue] pre (a ++ b) (.val x) a b → NoHead (· = '"') (a ++ b) → NoHead (· = '/') (a ++ b) →
      RuleOk E ctx .Value pre (a ++ b) (.val x) a b := by
    intro ctx h h1 h2
    exact value_of_bare ⟨[], ok_choice.2 ⟨rfl, h⟩⟩ h1 h2
  have num : ∀ {p : Char → Prop}, (∃ c u, a = c :: u ∧ (Dig c ∨ c = '-')) → (∀ c, Dig c ∨ c = '-' → ¬ p c) →
      NoHead p (a ++ b) := by
    rintro p ⟨c, u, e, hc⟩ h
    rw [e, List.cons_append, noHead_cons]; exact h c hc
  have q1 : ∀ c, Dig c ∨ c = '-' → ¬ c = '"' := by rintro c hc rfl; revert hc; decide
  have q2 : ∀ c, Dig c ∨ c = '-' → ¬ c = '/' := by rintro c hc rfl; revert hc; decide
  cases h with
  | string hs ha =>
    refine ⟨[], ?_⟩
    simp only [grammar, ok_choice, OkC, ok_action, ok_label]
    exact ⟨trivial, .inl ⟨_, _, ⟨rfl, _, rfl, .inl ⟨[], okR.2 ⟨rfl, rule_quoted.2 ⟨rfl, _, _, hs, ha, rfl⟩⟩⟩⟩, rfl⟩⟩
  | regex hs ha hu ht hc =>
    refine ⟨[], ?_⟩
    simp only [grammar, ok_choice, OkC, ok_action, ok_label]
    refine ⟨trivial, .inl ⟨_, _, ⟨rfl, _, rfl, .inr ⟨noR.2 (rule_quoted_no ?_), .inl ⟨[], okR.2 ⟨rfl,
      rule_regex.2 ⟨rfl, _, _, _, hs, ha, hu, ht, hc, rfl⟩⟩⟩⟩⟩, rfl⟩⟩
    rw [ha, List.cons_append, noHead_cons]; decide
  | stamp h =>
    have hd := stamp_cons h
    have hd' : ∃ c u, a = c :: u ∧ (Dig c ∨ c = '-') := by
      obtain ⟨c, u, e, hc⟩ := hd; exact ⟨c, u, e, .inl hc⟩
    exact bare (.inl ⟨[], okR.2 ⟨rfl, stamp_ok h⟩⟩) (num hd' q1) (num hd' q2)
  | day h =>
    have hd := day_cons h
    have hd' : ∃ c u, a = c :: u ∧ (Dig c ∨ c = '-') := by
      obtain ⟨c, u, e, hc⟩ := hd; exact ⟨c, u, e, .inl hc⟩
    exact bare (.inl ⟨[], okR.2 ⟨rfl, day_ok h hb⟩⟩) (num hd' q1) (num hd' q2)
  | address h =>
    have hd := addr_cons h []
    rw [List.append_nil] at hd
    have hd' : ∃ c u, a = c :: u ∧ (Dig c ∨ c = '-') := by
      obtain ⟨c, u, e, hc⟩ := hd; exact ⟨c, u, e, .inl hc⟩
    have hn := addr_no (E := E) (ctx := ctx) (pre := pre) h b
    exact bare (.inr ⟨noR.2 hn, .inl ⟨[], okR.2 ⟨rfl, address_ok h hb⟩⟩⟩) (num hd' q1) (num hd' q2)
  | @block _ _ _ n h hn ha =>
    have hd := addr_cons h ('/' :: numeral n)
    rw [← ha] at hd
    have hd' : ∃ c u, a = c :: u ∧ (Dig c ∨ c = '-') := by
      obtain ⟨c, u, e, hc⟩ := hd; exact ⟨c, u, e, .inl hc⟩
    have hno := addr_no (E := E) (ctx := ctx) (pre := pre) h
    refine bare (.inr ⟨noR.2 ?_, .inl ⟨[], okR.2 ⟨rfl, block_ok h hn ha hb⟩⟩⟩) (num hd' q1) (num hd' q2)
    rw [ha, List.append_assoc]; exact hno _
  | float hm hp hp2 hq hq2 ha hd hx =>
    have hd' : ∃ c u, a = c :: u ∧ (Dig c ∨ c = '-') := by rw [ha]; exact number_cons hm hp2 hp _
    refine bare (.inr ⟨noR.2 (timestamp_no ?_), .inr ⟨noR.2 ?_, .inl ⟨[], okR.2 ⟨rfl,
      float_ok hm hp hp2 hq hq2 ha hd hx hb⟩⟩⟩⟩) (num hd' q1) (num hd' q2)
    · rw [ha]
      rcases hm with rfl | rfl
      · rw [List.nil_append, List.append_assoc]
        refine fullDate_no hp2 ?_ fun _ => ?_
        · rw [List.cons_append, noHead_cons]; decide
        · rw [List.cons_append, noHead_cons]; decide
      · refine fullDate_no (ds := []) (by simp [AllDigits]) ?_ (by simp)
        rw [noHead_cons]; decide
    · rw [ha]
      rcases hm with rfl | rfl
      · rw [List.nil_append, List.append_assoc, List.cons_append]
        exact ip_no_float hp2 hq2 hb.noDig (hb.noHead (by decide))
      · refine ip_no_int (ds := []) (by simp [AllDigits]) ?_ ?_
        · rw [noHead_cons]; decide
        · rw [noHead_cons]; decide
  | int hm hp hp2 ha hd h1 h2 =>
    have hd' : ∃ c u, a = c :: u ∧ (Dig c ∨ c = '-') := by
      rw [ha]
      simpa using number_cons hm hp2 hp []
    refine bare (.inr ⟨noR.2 (timestamp_no ?_), .inr ⟨noR.2 ?_, .inr ⟨noR.2 ?_, .inl ⟨[], okR.2 ⟨rfl,
      int_ok hm hp hp2 ha hd h1 h2 hb⟩⟩⟩⟩⟩) (num hd' q1) (num hd' q2)
    · rw [ha]
      rcases hm with rfl | rfl
      · rw [List.nil_append]
        exact fullDate_no hp2 hb.noDig fun _ => hb.noHead (by decide)
      · refine fullDate_no (ds := []) (by simp [AllDigits]) ?_ (by simp)
        rw [noHead_cons]; decide
    · rw [ha]
      rcases hm with rfl | rfl
      · rw [List.nil_append]
        exact ip_no_int hp2 hb.noDig (hb.noHead (by decide))
      · refine ip_no_int (ds := []) (by simp [AllDigits]) ?_ ?_
        · rw [noHead_cons]; decide
        · rw [noHead_cons]; decide
    · rw [ha, List.append_assoc]
      exact float_no_int hm hp hp2 hb.noDig (hb.noHead (by decide))
  | true_ =>
    have hh : ∀ p : Char → Prop, ¬ p 't' → NoHead p ("true".toList ++ b) := by
      intro p hp c t h; cases h; exact hp
    have hno : ∀ x ∈ [Rule.Timestamp, .IPValue, .FloatValue, .IntValue], RuleNo E ctx x pre ("true".toList ++ b) :=
      fun x hx => bareValue_no hx (hh _ (by decide)) (hh _ (by decide))
    exact bare (.inr ⟨noR.2 (hno _ (by simp)), .inr ⟨noR.2 (hno _ (by simp)), .inr ⟨noR.2 (hno _ (by simp)),
      .inr ⟨noR.2 (hno _ (by simp)), .inl ⟨[], okR.2 ⟨rfl, true_ok⟩⟩⟩⟩⟩⟩) (hh _ (by decide)) (hh _ (by decide))
  | false_ =>
    have hh : ∀ p : Char → Prop, ¬ p 'f' → NoHead p ("false".toList ++ b) := by
      intro p hp c t h; cases h; exact hp
    have hno : ∀ x ∈ [Rule.Timestamp, .IPValue, .FloatValue, .IntValue], RuleNo E ctx x pre ("false".toList ++ b) :=
      fun x hx => bareValue_no hx (hh _ (by decide)) (hh _ (by decide))
    exact bare (.inr ⟨noR.2 (hno _ (by simp)), .inr ⟨noR.2 (hno _ (by simp)), .inr ⟨noR.2 (hno _ (by simp)),
      .inr ⟨noR.2 (hno _ (by simp)), .inl ⟨[], okR.2 ⟨rfl, false_ok⟩⟩⟩⟩⟩⟩) (hh _ (by decide)) (hh _ (by decide))

/-- A value is a literal. -/
theorem value_lit (h : RuleOk E ctx .Value pre s v a b) : ∃ x, v = .val x ∧ Lit E pre a x := by
  unfold RuleOk at h
  simp only [grammar, ok_choice, OkC, ok_action, ok_label, okR] at h
  obtain ⟨_, rfl, ⟨_, v0, ⟨rfl, _, rfl, h⟩, hr⟩ | ⟨-, ⟨_, _, -, hr⟩ | h⟩⟩ := h
  · have hv : ∃ x, v0 = .val x ∧ Lit E pre a x := by
      rcases h with ⟨_, rfl, h⟩ | ⟨-, ⟨_, rfl, h⟩ | ⟨-, ⟨_, rfl, h⟩ | h⟩⟩
      · obtain ⟨rfl, t, x, h1, h2, rfl⟩ := rule_quoted.1 h
        exact ⟨_, rfl, .string h1 h2⟩
      · obtain ⟨rfl, t, u, src, h1, h2, h3, h4, h5, rfl⟩ := rule_regex.1 h
        exact ⟨_, rfl, .regex h1 h2 h3 h4 h5⟩
      · obtain ⟨_, h⟩ := h
        simp only [grammar, ok_choice, OkC, okR] at h
        obtain ⟨rfl, ⟨_, rfl, h⟩ | ⟨-, ⟨_, rfl, h⟩ | ⟨-, ⟨_, rfl, h⟩ | ⟨-, ⟨_, rfl, h⟩ | ⟨-, ⟨_, rfl, h⟩ | h⟩⟩⟩⟩⟩ := h
        · exact timestamp_lit h
        · exact ip_lit h
        · exact float_lit h
        · exact int_lit h
        · exact bool_lit h
        · exact h.2.elim
      · exact h.2.elim
    obtain ⟨x, rfl, hx⟩ := hv
    have : v = .val x := by
      have : Except.ok (PV.val x, none) = (Except.ok (v, none) : ActRes) := hr
      simp only [Except.ok.injEq, Prod.mk.injEq, and_true] at this
      exact this.symm
    exact ⟨x, this, hx⟩
  · exfalso
    simp only [runAct] at hr
    split at hr
    · cases hr
    · split at hr <;> simp at hr
  · exact h.2.elim

end Aql
