import Verif.Proofs.LexString
/-!
Clean runs of the rules for numbers, booleans, addresses and times.
-/

namespace Aql

open Spec

variable {E : Env} {ctx : Ctx} {fr fr' : VFrame} {pre s a b : Str} {v : PV}

/-! ### Matching without regard to the value -/

/-- The expression matches `a` when `a ++ b` is ahead. -/
def Can (E : Env) (ctx : Ctx) (e : PExpr) (pre a b : Str) : Prop :=
  ∀ fr, ∃ v, Ok E ctx e fr pre (a ++ b) v a b fr

/-- The sequence matches `a` when `a ++ b` is ahead. -/
def CanS (E : Env) (ctx : Ctx) (es : List PExpr) (pre a b : Str) : Prop :=
  ∀ acc fr, ∃ v, OkS E ctx es acc fr pre (a ++ b) v a b fr

theorem Can.rule {x : Rule} (h : Can E ctx (grammar x) pre a b) : Can E ctx (.rule x) pre a b := by
  intro fr
  obtain ⟨v, h⟩ := h []
  exact ⟨v, ok_rule.2 ⟨rfl, _, h⟩⟩

theorem Can.rule' {x : Rule} (h : ∃ v, RuleOk E ctx x pre (a ++ b) v a b) : Can E ctx (.rule x) pre a b := by
  intro fr
  obtain ⟨v, h⟩ := h
  exact ⟨v, okR.2 ⟨rfl, h⟩⟩

theorem Can.seq {es : List PExpr} (h : CanS E ctx es pre a b) : Can E ctx (.seq es) pre a b := by
  intro fr
  obtain ⟨v, h⟩ := h [] fr
  exact ⟨v, ok_seq.2 h⟩

theorem CanS.one {e : PExpr} (h : Can E ctx e pre a b) : CanS E ctx [e] pre a b := by
  intro acc fr
  obtain ⟨v, h⟩ := h fr
  exact ⟨_, v, a, b, fr, h, [], by simp, rfl, rfl, rfl, rfl⟩

theorem CanS.cons {e : PExpr} {es : List PExpr} {a1 a2 : Str} (h1 : Can E ctx e pre a1 (a2 ++ b))
    (h2 : CanS E ctx es (pre ++ a1) a2 b) : CanS E ctx (e :: es) pre (a1 ++ a2) b := by
  intro acc fr
  obtain ⟨v1, h1⟩ := h1 fr
  obtain ⟨v2, h2⟩ := h2 (acc ++ [v1]) fr
  rw [← List.append_assoc] at h1
  exact ⟨v2, v1, a1, _, fr, h1, a2, rfl, h2⟩

theorem Can.lit1 {c : Char} {w : Str} : Can E ctx (.lit [c] false w) pre [c] b :=
  fun _ => ⟨_, ok_lit1.2 ⟨rfl, rfl, rfl, rfl⟩⟩

theorem Can.lit {t w : Str} : Can E ctx (.lit t false w) pre t b :=
  fun _ => ⟨_, ok_lit.2 ⟨rfl, rfl, rfl, rfl⟩⟩

theorem Can.left {e : PExpr} {es : List PExpr} (h : Can E ctx e pre a b) :
    Can E ctx (.choice (e :: es)) pre a b := by
  intro fr
  obtain ⟨v, h⟩ := h []
  exact ⟨v, ok_choice.2 ⟨rfl, .inl ⟨_, h⟩⟩⟩

theorem Can.right {e : PExpr} {es : List PExpr} (h1 : No E ctx e [] pre (a ++ b))
    (h : Can E ctx (.choice es) pre a b) : Can E ctx (.choice (e :: es)) pre a b := by
  intro fr
  obtain ⟨v, h⟩ := h fr
  exact ⟨v, ok_choice.2 ⟨rfl, .inr ⟨h1, (ok_choice.1 h).2⟩⟩⟩

theorem Can.opt {e : PExpr} (h : Can E ctx e pre a b) : Can E ctx (.opt e) pre a b := by
  intro fr
  obtain ⟨v, h⟩ := h []
  exact ⟨v, ok_opt.2 ⟨rfl, .inl ⟨_, h⟩⟩⟩

theorem Can.optNone {e : PExpr} (h : No E ctx e [] pre b) : Can E ctx (.opt e) pre [] b :=
  fun _ => ⟨_, ok_opt.2 ⟨rfl, .inr ⟨h, rfl, rfl, rfl⟩⟩⟩

theorem Can.toRule {x : Rule} (h : Can E ctx (grammar x) pre a b) : ∃ v, RuleOk E ctx x pre (a ++ b) v a b := by
  obtain ⟨v, h⟩ := h []
  exact ⟨v, _, h⟩

/-! ### Digits -/

/-- Decimal digit. -/
def Dig (c : Char) : Prop := '0' ≤ c ∧ c ≤ '9'

/-- The class of digits. -/
abbrev digit : PExpr := .cls [] [('0', '9')] false false "[0-9]".toList

theorem ok_digit : Ok E ctx digit fr pre s v a b fr' ↔ fr' = fr ∧ ∃ x, a = [x] ∧ s = x :: b ∧
    v = .bytes [x] ∧ Dig x := by
  rw [ok_cls]; simp only [cls_dig]; rfl

theorem no_digit : No E ctx digit fr pre s ↔ NoHead Dig s := by
  rw [no_cls']; simp only [cls_dig]; rfl

theorem Can.digit {c : Char} (h : Dig c) : Can E ctx digit pre [c] b :=
  fun _ => ⟨_, ok_digit.2 ⟨rfl, c, rfl, rfl, rfl, h⟩⟩

theorem Can.digits (h1 : a ≠ []) (h2 : AllDigits a) (h3 : NoHead Dig b) :
    Can E ctx (.plus Aql.digit) pre a b := by
  intro fr
  refine ⟨_, ok_plus.2 ⟨rfl, _, rfl, reps_cls.2 ⟨rfl, rfl, ?_, ?_⟩, by simpa using h1⟩⟩
  · intro c hc; exact cls_dig.2 (h2 c hc)
  · simp only [cls_dig]; exact h3

theorem plus_digits (h : Ok E ctx (.plus digit) fr pre s v a b fr') :
    fr' = fr ∧ s = a ++ b ∧ a ≠ [] ∧ AllDigits a ∧ NoHead Dig b := by
  rw [ok_plus] at h
  obtain ⟨rfl, vs, rfl, h, hne⟩ := h
  rw [reps_cls] at h
  simp only [cls_dig] at h
  obtain ⟨h1, rfl, h2, h3⟩ := h
  exact ⟨rfl, h1, by simpa using hne, h2, h3⟩

theorem no_digits : No E ctx (.plus digit) fr pre s ↔ NoHead Dig s := by
  rw [no_plus, no_digit]

theorem dig_ne {c d : Char} (h : Dig c) (hd : ¬ Dig d) : c ≠ d := by rintro rfl; exact hd h

instance (c : Char) : Decidable (Dig c) := by unfold Dig; infer_instance

theorem digits2 (h1 : AllDigits a) (h2 : a.length = 2) : Can E ctx (.rule .Digit2) pre a b := by
  match a, h2 with
  | [c, d], _ =>
    refine .rule (.seq (.cons (a1 := [c]) (.digit (h1 c (by simp))) (.one (.digit (h1 d (by simp))))))

theorem digits4 (h1 : AllDigits a) (h2 : a.length = 4) : Can E ctx (.rule .Digit4) pre a b := by
  match a, h2 with
  | [c, d, e, f], _ =>
    refine .rule (.seq (.cons (a1 := [c]) (.digit (h1 c (by simp))) (.cons (a1 := [d]) (.digit (h1 d (by simp)))
      (.cons (a1 := [e]) (.digit (h1 e (by simp))) (.one (.digit (h1 f (by simp))))))))

/-! ### What may follow a literal -/

/-- What follows a literal: nothing, a parenthesis, a comma, or white space not followed by a digit. -/
def FLit (b : Str) : Prop :=
  b = [] ∨ ∃ c t, b = c :: t ∧ (c = ')' ∨ c = ',' ∨ (IsWs c ∧ NoHead Dig t))

theorem FLit.noHead {p : Char → Prop} (h : FLit b)
    (hp : ∀ c ∈ [')', ',', ' ', '\n', '\t', '\r'], ¬ p c) : NoHead p b := by
  obtain rfl | ⟨c, t, rfl, h⟩ := h
  · simp
  · rw [noHead_cons]
    apply hp
    simp only [List.mem_cons, List.not_mem_nil, or_false]
    unfold IsWs at h
    tauto

theorem FLit.noDig (h : FLit b) : NoHead Dig b := h.noHead (by decide)

/-! ### Times -/

theorem fullDate_mk {x : Date} (h : DateText a x) : Can E ctx (.rule .fullDate) pre a b := by
  obtain ⟨p, q, r, hp, hp4, hq, hq2, hr, hr2, rfl, -⟩ := h
  exact .rule (.seq (.cons (.rule (digits4 hp hp4)) (.cons (a1 := ['-']) .lit1 (.cons (.rule (digits2 hq hq2))
    (.cons (a1 := ['-']) .lit1 (.one (.rule (digits2 hr hr2))))))))

theorem partialTime_mk {secs ns : Nat} {f : Str} (h : ClockText a secs) (hf : FractionText f ns)
    (hb : NoHead Dig b) (hb2 : NoHead (· = '.') b) : Can E ctx (.rule .partialTime) pre (a ++ f) b := by
  obtain ⟨p, q, r, hp, hp4, hq, hq2, hr, hr2, rfl, -⟩ := h
  have e : p ++ ':' :: (q ++ ':' :: r) ++ f = p ++ ([':'] ++ (q ++ ([':'] ++ (r ++ f)))) := by simp
  rw [e]
  refine .rule (.seq (.cons (.rule (digits2 hp hp4)) (.cons (a1 := [':']) .lit1 (.cons (.rule (digits2 hq hq2))
    (.cons (a1 := [':']) .lit1 (.cons (.rule (digits2 hr hr2)) (.one ?_)))))))
  cases hf with
  | none =>
    refine .optNone ?_
    rw [noR]
    unfold RuleNo
    simp only [grammar, no_seq, NoS, no_lit1]
    exact .inl hb2
  | frac h1 h2 =>
    exact .opt (.rule (.seq (.cons (a1 := ['.']) .lit1 (.one (.digits h1 h2 hb)))))

theorem goLower_ascii {c : Char} (h : c.toNat < 128) : goLower E c = asciiLower c := by
  unfold goLower
  rw [if_pos]
  exact UInt32.lt_iff_toNat_lt.2 h

theorem Can.litI {c d : Char} {w : Str} (h : goLower E d = c) : Can E ctx (.lit [c] true w) pre [d] b :=
  fun _ => ⟨_, ok_litI.2 ⟨rfl, rfl, rfl, by simp [h]⟩⟩

theorem no_litI1 {c : Char} {w : Str} : No E ctx (.lit [c] true w) fr pre s ↔
    NoHead (fun x => goLower E x = c) s := by
  rw [no_litI]
  constructor
  · rintro h d t rfl hd
    exact h [d] t rfl (by simp [hd])
  · rintro h a b rfl ha
    match a, ha with
    | [d], ha => exact h d b rfl (by simpa using ha)

theorem timeOffset_mk {off : Int} (h : ZoneText a off) : Can E ctx (.rule .timeOffset) pre a b := by
  cases h with
  | utc => exact .rule (.left (.litI (by rw [goLower_ascii (by decide)]; decide)))
  | @offset sg h m h1 h2 h3 h4 _ _ hsg =>
    refine .rule (.right ?_ (.left (.rule (.seq (.cons (a1 := [sg]) ?_ (.cons (.rule (digits2 h1 h2))
      (.cons (a1 := [':']) .lit1 (.one (.rule (digits2 h3 h4))))))))))
    · rw [no_litI1, List.cons_append, noHead_cons]
      rcases hsg with rfl | rfl <;> (rw [goLower_ascii (by decide)]; decide)
    · rcases hsg with rfl | rfl
      · exact .left .lit1
      · exact .right (by rw [no_lit1]; simp) (.left .lit1)

theorem dateTime_mk {i : Int} (h : StampText a i) : Can E ctx (.rule .dateTime) pre a b := by
  obtain ⟨dt, x, n, ct, secs, ft, ns, zt, off, h1, h2, h3, h4, h5, h6, rfl, rfl⟩ := h
  have e : dt ++ 'T' :: (ct ++ (ft ++ zt)) = dt ++ (['T'] ++ ((ct ++ ft) ++ zt)) := by simp
  rw [e]
  refine .rule (.seq (.cons (fullDate_mk h1) (.cons (.left (.litI ?_)) (.one (.rule (.seq (.cons
    (partialTime_mk h4 h5 ?_ ?_) (.one (timeOffset_mk h6)))))))))
  · rw [goLower_ascii (by decide)]; decide
  · cases h6 with
    | utc => rw [List.cons_append, noHead_cons]; decide
    | offset _ _ _ _ _ _ hsg =>
      rw [List.cons_append, noHead_cons]
      rcases hsg with rfl | rfl <;> decide
  · cases h6 with
    | utc => rw [List.cons_append, noHead_cons]; decide
    | offset _ _ _ _ _ _ hsg =>
      rw [List.cons_append, noHead_cons]
      rcases hsg with rfl | rfl <;> decide

/-- After a day, what follows is not read as a time. -/
theorem dateTime_no {x : Date} (h : DateText a x) (hb : FLit b) : RuleNo E ctx .dateTime pre (a ++ b) := by
  unfold RuleNo
  simp only [grammar, no_seq, NoS, no_choice, NoC, no_litI1, no_lit1]
  obtain ⟨v, h1⟩ := fullDate_mk (E := E) (ctx := ctx) (pre := pre) (b := b) h []
  refine .inr ⟨_, _, _, _, h1, ?_⟩
  have ht : NoHead (fun x => goLower E x = 't') b := by
    refine hb.noHead ?_
    intro c hc
    rw [goLower_ascii (by revert c; decide)]
    revert c; decide
  by_cases hs : NoHead (· = ' ') b
  · exact .inl ⟨ht, hs, trivial⟩
  · obtain rfl | ⟨c, t, rfl, h2⟩ := hb
    · exact absurd noHead_nil hs
    · have hc : c = ' ' := by simpa using hs
      subst hc
      have hd : NoHead Dig t := by
        rcases h2 with h | h | h
        · cases h
        · cases h
        · exact h.2
      refine .inr ⟨_, _, _, _, ok_choice.2 ⟨rfl, .inr ⟨no_litI1.2 ht, .inl ⟨_, ok_lit1.2 ⟨rfl, rfl, rfl, rfl⟩⟩⟩⟩,
        .inl ?_⟩
      simp only [noR, RuleNo, grammar, no_seq, NoS]
      exact .inl (.inl (.inl (no_digit.2 hd)))

theorem digit4_no {ds t : Str} (h1 : AllDigits ds) (h2 : ds.length < 4) (h3 : NoHead Dig t) :
    RuleNo E ctx .Digit4 pre (ds ++ t) := by
  unfold RuleNo
  simp only [grammar, no_seq, NoS, no_digit, ok_digit]
  match ds, h2 with
  | [], _ => exact .inl h3
  | [c], _ => exact .inr ⟨_, _, _, _, ⟨rfl, c, rfl, rfl, rfl, h1 c (by simp)⟩, .inl h3⟩
  | [c, d], _ => exact .inr ⟨_, _, _, _, ⟨rfl, c, rfl, rfl, rfl, h1 c (by simp)⟩,
      .inr ⟨_, _, _, _, ⟨rfl, d, rfl, rfl, rfl, h1 d (by simp)⟩, .inl h3⟩⟩
  | [c, d, e], _ => exact .inr ⟨_, _, _, _, ⟨rfl, c, rfl, rfl, rfl, h1 c (by simp)⟩,
      .inr ⟨_, _, _, _, ⟨rfl, d, rfl, rfl, rfl, h1 d (by simp)⟩,
      .inr ⟨_, _, _, _, ⟨rfl, e, rfl, rfl, rfl, h1 e (by simp)⟩, .inl h3⟩⟩⟩

theorem fullDate_no {ds t : Str} (h1 : AllDigits ds) (h3 : NoHead Dig t)
    (h4 : ds ≠ [] → NoHead (· = '-') t) : RuleNo E ctx .fullDate pre (ds ++ t) := by
  unfold RuleNo
  simp only [grammar, no_seq, NoS, noR, okR, no_lit1]
  by_cases hl : ds.length < 4
  · exact .inl (noR.2 (digit4_no h1 hl h3))
  · have e : ds = ds.take 4 ++ ds.drop 4 := (List.take_append_drop 4 ds).symm
    have hd : AllDigits (ds.take 4) := fun c hc => h1 c (List.mem_of_mem_take hc)
    obtain ⟨v, h5⟩ := Can.rule (x := .dateFullyear) (digits4 (E := E) (ctx := ctx) (pre := pre)
      (b := ds.drop 4 ++ t) hd (by rw [List.length_take]; omega)) []
    rw [← List.append_assoc, ← e] at h5
    refine .inr ⟨_, _, _, _, (okR.1 h5), .inl ?_⟩
    rcases hdr : ds.drop 4 with _ | ⟨c, u⟩
    · exact h4 (by rintro rfl; simp at hl)
    · have hc : Dig c := h1 c (List.mem_of_mem_drop (by rw [hdr]; simp))
      simp only [List.cons_append, noHead_cons]
      rintro rfl
      exact absurd hc (by decide)

theorem timestamp_no (h : RuleNo E ctx .fullDate pre s) : RuleNo E ctx .Timestamp pre s := by
  unfold RuleNo
  simp only [grammar, no_action, no_choice, NoC, noR]
  refine ⟨?_, h, trivial⟩
  unfold RuleNo
  simp only [grammar, no_seq, NoS, noR]
  exact .inl h

theorem getpos_head (h : NoHead (· = '\n') a) (ha : a ≠ []) :
    getpos (locAt pre (a ++ b)) a = posAt pre a := by
  cases a with
  | nil => exact absurd rfl ha
  | cons c t => exact getpos_locAt (by simpa using h) rfl

theorem digits_head {p t : Str} (h : AllDigits p) (hp : p ≠ []) :
    NoHead (· = '\n') (p ++ t) ∧ p ++ t ≠ [] := by
  cases p with
  | nil => exact absurd rfl hp
  | cons c p =>
    have : Dig c := h c (by simp)
    refine ⟨?_, by simp⟩
    rw [List.cons_append, noHead_cons]
    exact dig_ne this (by decide)

theorem date_head {x : Date} (h : DateText a x) : NoHead (· = '\n') (a ++ b) ∧ a ++ b ≠ [] := by
  obtain ⟨p, q, r, hp, hp4, hq, hq2, hr, hr2, rfl, -⟩ := h
  rw [List.append_assoc]
  exact digits_head hp (by rintro rfl; cases hp4)

theorem stamp_head {i : Int} (h : StampText a i) : NoHead (· = '\n') a ∧ a ≠ [] := by
  obtain ⟨dt, x, n, ct, secs, ft, ns, zt, off, h1, h2, h3, h4, h5, h6, rfl, rfl⟩ := h
  exact date_head h1

theorem day_head {i : Int} (h : DayText a i) : NoHead (· = '\n') a ∧ a ≠ [] := by
  obtain ⟨x, h, -⟩ := h
  simpa using date_head (b := []) h

theorem date_length {x : Date} (h : DateText a x) : a.length = 10 := by
  obtain ⟨p, q, r, hp, hp4, hq, hq2, hr, hr2, rfl, -⟩ := h
  simp [hp4, hq2, hr2]

theorem day_len {i : Int} (h : DayText a i) : a.length = 10 := by
  obtain ⟨x, h, -⟩ := h
  exact date_length h

theorem stamp_len {i : Int} (h : StampText a i) : a.length ≠ 10 := by
  obtain ⟨dt, x, n, ct, secs, ft, ns, zt, off, h1, h2, h3, h4, h5, h6, rfl, rfl⟩ := h
  simp [date_length h1]

/-- A time is a literal. -/
theorem timestamp_lit (h : RuleOk E ctx .Timestamp pre s v a b) : ∃ x, v = .val x ∧ Lit E pre a x := by
  have hs := h.split
  subst hs
  unfold RuleOk at h
  simp only [grammar, ok_action] at h
  obtain ⟨_, _, -, hr⟩ := h
  obtain ⟨x, hx, rfl⟩ := tokResult_ok hr
  refine ⟨x, rfl, ?_⟩
  unfold newTimeVal at hx
  split at hx
  · obtain ⟨i, hi, rfl⟩ := map_some hx
    have := (parseDay_iff a i).1 hi
    rw [getpos_head (day_head this).1 (day_head this).2]
    exact .day this
  · obtain ⟨i, hi, rfl⟩ := map_some hx
    have := (parseRFC3339_iff a i).1 hi
    rw [getpos_head (stamp_head this).1 (stamp_head this).2]
    exact .stamp this

theorem rule_action {x : Rule} {act : Act} {e : PExpr} {v' : PV} (hx : grammar x = .action act e)
    (h : Can E ctx e pre a b) (hr : runAct E act [] a (locAt pre (a ++ b)) = .ok (v', none)) :
    RuleOk E ctx x pre (a ++ b) v' a b := by
  obtain ⟨v, h⟩ := h []
  exact ⟨[], by rw [hx]; exact ok_action.2 ⟨v, h, hr⟩⟩

theorem stamp_ok {i : Int} (h : StampText a i) :
    RuleOk E ctx .Timestamp pre (a ++ b) (.val (.time a i false (posAt pre a))) a b := by
  refine rule_action rfl (.left (dateTime_mk h)) ?_
  simp only [runAct, newTimeVal]
  rw [if_neg (stamp_len h), (parseRFC3339_iff a i).2 h, getpos_head (stamp_head h).1 (stamp_head h).2]
  rfl

theorem day_ok {i : Int} (h : DayText a i) (hb : FLit b) :
    RuleOk E ctx .Timestamp pre (a ++ b) (.val (.time a i true (posAt pre a))) a b := by
  have h' := h
  obtain ⟨x, hx, -⟩ := h'
  refine rule_action rfl (.right (noR.2 (dateTime_no hx hb)) (.left (fullDate_mk hx))) ?_
  simp only [runAct, newTimeVal]
  rw [if_pos (day_len h), (parseDay_iff a i).2 h, getpos_head (day_head h).1 (day_head h).2]
  rfl

end Aql
