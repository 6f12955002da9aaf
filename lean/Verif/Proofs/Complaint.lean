import Verif.Spec.Complaint
import Verif.Proofs.Blame
/-!
The validator says exactly what `Complains` lists.
-/

namespace Aql

open Spec

variable {E : Env}

theorem opMsg_eq (op : Op) (s : String) : opMsg op s = aboutOp op s.toList := by
  cases op <;> simp [opMsg, aboutOp, Op.text, opSign]

theorem valueIdx_eq (i n : Nat) : valueIdx i n = valueNo (i + 1) n := by
  have h : ∀ k : Nat, (toString k).toList = Nat.toDigits 10 k := by
    intro k
    change (Nat.repr k).toList = _
    rw [Nat.repr_eq_ofList_toDigits, String.toList_ofList]
  unfold valueIdx valueNo
  rw [h, h]
  simp

theorem checkValues_iff {op : Op} {vs : List Val} {e : PErr} : checkValues op vs = some e ↔
    ∃ l v r, vs = l ++ v :: r ∧ (∀ x ∈ l, OperandOk op x) ∧ ¬ OperandOk op v ∧
      ((op ∈ [.LT, .LTE, .GT, .GTE, .BET] ∧ e = ⟨v.pos, aboutOp op "needs numeric arguments".toList⟩) ∨
        (op = .SIM ∧ e = ⟨v.pos, aboutOp op "needs string, or boolean arguments".toList⟩)) := by
  have find : ∀ (ts : List ValType) (l : List Val) (v : Val) (r : List Val), (∀ x ∈ l, x.type ∈ ts) →
      v.type ∉ ts → mustBeOneOf ts (l ++ v :: r) = some v := by
    intro ts l v r hl hv
    induction l with
    | nil => simp [mustBeOneOf, hv]
    | cons x l ih =>
      simp only [List.cons_append, mustBeOneOf]
      rw [if_pos (hl x (by simp))]
      exact ih (fun y hy => hl y (by simp [hy]))
  have key : ∀ (ts : List ValType) (f : Val → PErr), (∀ x : Val, OperandOk op x ↔ x.type ∈ ts) →
      ((mustBeOneOf ts vs).map f = some e ↔
      ∃ l v r, vs = l ++ v :: r ∧ (∀ x ∈ l, OperandOk op x) ∧ ¬ OperandOk op v ∧ e = f v) := by
    intro ts f ht
    rw [Option.map_eq_some_iff]
    constructor
    · rintro ⟨v, hv, rfl⟩
      obtain ⟨l, r, h1, h2, h3⟩ := mustBeOneOf_some hv
      exact ⟨l, v, r, h1, fun x hx => (ht x).2 (h2 x hx), fun h => h3 ((ht v).1 h), rfl⟩
    · rintro ⟨l, v, r, rfl, h2, h3, rfl⟩
      exact ⟨v, find ts l v r (fun x hx => (ht x).1 (h2 x hx)) (fun h => h3 ((ht v).2 h)), rfl⟩
  cases op <;> simp only [checkValues] <;> first
    | (rw [key _ _ (by intro x; simp [OperandOk])]; simp [opMsg_eq])
    | simp

theorem checkRValsLoop_iff {op : Op} {n : Nat} {e : PErr} : ∀ {vs : List Val} {seen : List Str} {l : List Val},
    (∀ s, s ∈ seen ↔ s ∈ l.map (Val.toStr E)) → ListOk E op l →
    (checkRValsLoop E op n seen l.length vs = some e ↔
    ∃ l' v r w, vs = l' ++ v :: r ∧ ListOk E op (l ++ l') ∧ w ∈ l ++ l' ∧
      ((w.toStr E = v.toStr E ∧ e = ⟨v.pos, "duplicate argument [".toList ++ v.toStr E ++ "]".toList ++
        valueNo ((l ++ l').length + 1) n⟩) ∨
       (op = .EQ ∧ v.toStr E ∉ (l ++ l').map (Val.toStr E) ∧
        ((v.toStr E = "true".toList ∧ w.toStr E = "false".toList) ∨
          (v.toStr E = "false".toList ∧ w.toStr E = "true".toList)) ∧
        e = ⟨v.pos, "conflicting boolean value [".toList ++ v.toStr E ++ "]".toList ++
          valueNo ((l ++ l').length + 1) n⟩))) := by
  intro vs
  induction vs with
  | nil => intro seen l hs hl; simp [checkRValsLoop]
  | cons v vs ih =>
    intro seen l hs hl
    simp only [checkRValsLoop, valueIdx_eq]
    have bad : ∀ {l'}, ListOk E op (l ++ v :: l') → ListOk E op (l ++ [v]) := by
      intro l' h
      exact listOk_mono (l ++ [v]) l' (by simpa using h)
    by_cases h1 : v.toStr E ∈ seen
    · rw [if_pos h1]
      rw [hs, List.mem_map] at h1
      obtain ⟨w, hw, hwv⟩ := h1
      constructor
      · intro h; cases h
        exact ⟨[], v, vs, w, rfl, by simpa using hl, by simpa using hw, .inl ⟨hwv, by simp⟩⟩
      · rintro ⟨l', u, r, w', h, hok, hm, hc⟩
        cases l' with
        | nil =>
          cases h
          rcases hc with ⟨-, rfl⟩ | ⟨-, hn, -⟩
          · simp
          · exact absurd (List.mem_map.2 ⟨w, by simpa using hw, hwv⟩) hn
        | cons y l' =>
          cases h
          have := (bad hok).1
          rw [List.map_append, List.nodup_append] at this
          exact absurd hwv (this.2.2 _ (List.mem_map.2 ⟨w, hw, rfl⟩) _ (by simp))
    rw [if_neg h1]
    have h1' : v.toStr E ∉ l.map (Val.toStr E) := fun h => h1 ((hs _).2 h)
    by_cases h2 : op = .EQ ∧ ((v.toStr E = "true".toList ∧ "false".toList ∈ seen) ∨
        (v.toStr E = "false".toList ∧ "true".toList ∈ seen))
    · rw [if_pos h2]
      have hbad : ¬ ListOk E op (l ++ [v]) := by
        rintro ⟨-, hc⟩
        apply hc h2.1
        simp only [List.map_append, List.map_cons, List.map_nil, List.mem_append, List.mem_singleton]
        rw [← hs, ← hs]
        rcases h2.2 with ⟨a, b⟩ | ⟨a, b⟩
        · exact ⟨.inr a.symm, .inl b⟩
        · exact ⟨.inl b, .inr a.symm⟩
      have hw : ∃ w ∈ l, (v.toStr E = "true".toList ∧ w.toStr E = "false".toList) ∨
          (v.toStr E = "false".toList ∧ w.toStr E = "true".toList) := by
        rcases h2.2 with ⟨a, b⟩ | ⟨a, b⟩
        · obtain ⟨w, hw, hb⟩ := List.mem_map.1 ((hs _).1 b); exact ⟨w, hw, .inl ⟨a, hb⟩⟩
        · obtain ⟨w, hw, hb⟩ := List.mem_map.1 ((hs _).1 b); exact ⟨w, hw, .inr ⟨a, hb⟩⟩
      obtain ⟨w, hw, hwv⟩ := hw
      constructor
      · intro h; cases h
        exact ⟨[], v, vs, w, rfl, by simpa using hl, by simpa using hw,
          .inr ⟨h2.1, by simpa using h1', hwv, by simp⟩⟩
      · rintro ⟨l', u, r, w', h, hok, hm, hc⟩
        cases l' with
        | nil =>
          cases h
          rcases hc with ⟨he, -⟩ | ⟨-, -, -, rfl⟩
          · exact absurd (List.mem_map.2 ⟨w', by simpa using hm, he⟩) h1'
          · simp
        | cons y l' => cases h; exact absurd (bad hok) hbad
    rw [if_neg h2]
    have hl' : ListOk E op (l ++ [v]) := by
      refine ⟨?_, fun hop => ?_⟩
      · rw [List.map_append, List.nodup_append]
        refine ⟨hl.1, by simp, ?_⟩
        intro a ha b hb
        simp only [List.map_cons, List.map_nil, List.mem_singleton] at hb
        rintro rfl
        rw [← hs, hb] at ha
        exact h1 ha
      · simp only [List.map_append, List.map_cons, List.map_nil, List.mem_append, List.mem_singleton]
        rw [← hs, ← hs]
        rintro ⟨a | a, b | b⟩
        · exact hl.2 hop ⟨(hs _).1 a, (hs _).1 b⟩
        · exact h2 ⟨hop, .inr ⟨b.symm, a⟩⟩
        · exact h2 ⟨hop, .inl ⟨a.symm, b⟩⟩
        · rw [← b] at a; exact absurd a (by decide)
    have hs' : ∀ s, s ∈ v.toStr E :: seen ↔ s ∈ (l ++ [v]).map (Val.toStr E) := by
      intro s
      simp only [List.mem_cons, hs, List.map_append, List.map_cons, List.map_nil, List.mem_append,
        List.not_mem_nil, or_false]
      exact or_comm
    have := ih (seen := v.toStr E :: seen) (l := l ++ [v]) hs' hl'
    rw [List.length_append, List.length_singleton] at this
    rw [this]
    have hassoc : ∀ l', l ++ [v] ++ l' = l ++ v :: l' := by simp
    simp only [hassoc]
    constructor
    · rintro ⟨l', u, r, w, rfl, hok, hm, hc⟩
      exact ⟨v :: l', u, r, w, rfl, hok, hm, hc⟩
    · rintro ⟨l', u, r, w, h, hok, hm, hc⟩
      cases l' with
      | nil =>
        cases h
        rw [List.append_nil] at hm hc
        rcases hc with ⟨he, -⟩ | ⟨ho, -, hc, -⟩
        · exact absurd (List.mem_map.2 ⟨w, hm, he⟩) h1'
        · refine absurd ⟨ho, ?_⟩ h2
          rcases hc with ⟨a, b⟩ | ⟨a, b⟩
          · exact .inl ⟨a, (hs _).2 (List.mem_map.2 ⟨w, hm, b⟩)⟩
          · exact .inr ⟨a, (hs _).2 (List.mem_map.2 ⟨w, hm, b⟩)⟩
      | cons y l' => cases h; exact ⟨l', u, r, w, rfl, hok, hm, hc⟩

theorem checkArity_iff {op : Op} {vs : List Val} {pos : Pos} {e : PErr}
    (hty : (∀ v ∈ vs, OperandOk op v) ∨ op = .EXS ∨ op = .NUL) : checkArity op vs pos = some e ↔
    ((op = .EXS ∨ op = .NUL) ∧ vs ≠ [] ∧ e = ⟨pos, aboutOp op "does not accept arguments".toList⟩) ∨
    (op ∈ [.LT, .LTE, .GT, .GTE] ∧ vs.length ≠ 1 ∧ e = ⟨pos, aboutOp op "requires exactly 1 arguments".toList⟩) ∨
    (op = .BET ∧ vs.length ≠ 2 ∧ e = ⟨pos, aboutOp op "requires exactly 2 arguments".toList⟩) ∨
    ((op = .EQ ∨ op = .SIM) ∧ vs = [] ∧ e = ⟨pos, aboutOp op "requires at least 1 arguments".toList⟩) := by
  cases op <;> simp [checkArity, opMsg_eq, List.length_pos_iff, eq_comm]

theorem checkBetween_iff {a b : Val} {e : PErr} (ha : OperandOk .BET a) (hb : OperandOk .BET b) :
    checkBetween .BET [a, b] = .ok (some e) ↔
    (typeOf a = .time ∧ typeOf b ≠ .time ∧ e = ⟨b.pos, "second argument must also be a datetime value".toList⟩) ∨
    ((typeOf a = .time → typeOf b = .time) ∧ ¬ BetweenOk a b ∧
      e = ⟨b.pos, "[><] operation requires the second argument be greater".toList⟩) := by
  obtain ⟨r, hr, hi⟩ := checkBetween_spec a b
  rw [← hi, hr, typeOf_eq, typeOf_eq]
  change _ ↔ _ ∨ (_ ∧ _ ∧ e = ⟨b.pos, greaterMsg⟩)
  simp only [Except.ok.injEq]
  have sometimes : ∀ (c : Prop) [Decidable c] (g : PErr), r = (if c then some g else none) →
      (r = some e ↔ ¬ r = none ∧ e = g) := by
    intro c _ g h
    by_cases hc : c
    · rw [if_pos hc] at h; subst h; simp [eq_comm]
    · rw [if_neg hc] at h; subst h; simp
  by_cases hta : a.type = .time
  · by_cases htb : b.type = .time
    · simp only [hta, htb, ne_eq, not_true_eq_false, false_and, and_false, false_or, true_and, forall_const]
      cases a <;> cases hta
      cases b <;> cases htb
      exact sometimes _ _ (Except.ok.inj hr).symm
    · simp only [hta, htb, ne_eq, not_false_eq_true, true_and, forall_const, false_and, or_false]
      have : r = some ⟨b.pos, "second argument must also be a datetime value".toList⟩ := by
        cases a <;> cases hta
        cases b <;> first | exact absurd rfl htb | exact (Except.ok.inj hr).symm
      rw [this, Option.some.injEq, eq_comm]
  · simp only [hta, false_and, false_or, false_implies, true_and]
    cases a <;> first | exact absurd rfl hta | exact sometimes _ _ (Except.ok.inj hr).symm

/-- The validator's error is exactly what is to be said. -/
theorem validateExpr_iff {op : Op} {vs : List Val} {pos : Pos} {e : PErr} :
    validateExpr E op vs pos = .ok (some e) ↔ Complains E op vs pos e := by
  have bet : ∀ {a b : Val}, vs = [a, b] → ∀ v ∈ vs, v = a ∨ v = b := by
    intro a b h v hv; subst h; simpa using hv
  -- a comparison that passes a check is not complained about in that way
  unfold validateExpr
  cases h1 : checkValues op vs with
  | some e1 =>
    obtain ⟨l, v, r, h2, h3, h4, h5⟩ := checkValues_iff.1 h1
    have hno : ¬ ∀ x ∈ vs, OperandOk op x := fun h => h4 (h v (by rw [h2]; simp))
    have hop : op ≠ .EXS ∧ op ≠ .NUL ∧ op ≠ .EQ := by
      rcases h5 with ⟨h, -⟩ | ⟨rfl, -⟩
      · refine ⟨?_, ?_, ?_⟩ <;> rintro rfl <;> revert h <;> decide
      · decide
    simp only [Except.ok.injEq, Option.some.injEq]
    constructor
    · rintro rfl
      rcases h5 with ⟨h, rfl⟩ | ⟨h, rfl⟩
      · exact .numeric h h2 h3 h4
      · exact .textual h h2 h3 h4
    · intro h
      have : checkValues op vs = some e := by
        cases h with
        | numeric a b c d => exact checkValues_iff.2 ⟨_, _, _, b, c, d, .inl ⟨a, rfl⟩⟩
        | textual a b c d => exact checkValues_iff.2 ⟨_, _, _, b, c, d, .inr ⟨a, rfl⟩⟩
        | noOperand a => rcases a with h | h; exacts [absurd h hop.1, absurd h hop.2.1]
        | oneOperand a b => exact absurd b hno
        | twoOperands a b => exact absurd b hno
        | someOperand a b => rw [b] at h2; simp at h2
        | duplicate a => exact absurd a hno
        | conflict a => exact absurd a hop.2.2
        | @datetime a b h6 h7 h8 h9 h10 h11 =>
          refine absurd (fun x hx => ?_) hno
          rcases bet h7 x hx with rfl | rfl
          · subst h6; rw [typeOf_eq] at h9; simp [OperandOk, h9]
          · exact h11
        | @order a b h6 h7 h8 h9 h10 =>
          refine absurd (fun x hx => ?_) hno
          rcases bet h7 x hx with rfl | rfl
          · exact h9
          · exact h10
      rw [h1] at this; exact Option.some.inj this
  | none =>
    have hty := checkValues_none' h1
    have novals : ∀ {l v r}, vs = l ++ v :: r → (∀ x ∈ l, OperandOk op x) → ¬ OperandOk op v →
        op ∈ [.LT, .LTE, .GT, .GTE, .BET] ∨ op = .SIM → False := by
      intro l v r a b c d
      rcases d with d | d
      · rw [checkValues_iff.2 ⟨l, v, r, a, b, c, .inl ⟨d, rfl⟩⟩] at h1; cases h1
      · rw [checkValues_iff.2 ⟨l, v, r, a, b, c, .inr ⟨d, rfl⟩⟩] at h1; cases h1
    dsimp only
    cases h2 : checkArity op vs pos with
    | some e2 =>
      have har : ¬ ArityOk op vs.length := by
        intro h; rw [(checkArity_none op vs pos).2 h] at h2; cases h2
      simp only [Except.ok.injEq, Option.some.injEq]
      constructor
      · rintro rfl
        rcases (checkArity_iff hty).1 h2 with ⟨a, b, rfl⟩ | ⟨a, b, rfl⟩ | ⟨a, b, rfl⟩ | ⟨a, b, rfl⟩
        · exact .noOperand a b
        · refine .oneOperand a ?_ b
          rcases hty with h | rfl | rfl
          · exact h
          · exact absurd a (by decide)
          · exact absurd a (by decide)
        · refine .twoOperands a ?_ b
          rcases hty with h | rfl | rfl
          · exact h
          · exact absurd a (by decide)
          · exact absurd a (by decide)
        · exact .someOperand a b
      · intro h
        have : checkArity op vs pos = some e := by
          rw [checkArity_iff hty]
          cases h with
          | numeric a b c d => exact (novals b c d (.inl a)).elim
          | textual a b c d => exact (novals b c d (.inr a)).elim
          | noOperand a b => exact .inl ⟨a, b, rfl⟩
          | oneOperand a b c => exact .inr (.inl ⟨a, c, rfl⟩)
          | twoOperands a b c => exact .inr (.inr (.inl ⟨a, c, rfl⟩))
          | someOperand a b => exact .inr (.inr (.inr ⟨a, b, rfl⟩))
          | duplicate a b => exact absurd b har
          | @conflict l v r w a b c d h6 h7 => subst a; exact absurd (by rw [b]; simp [ArityOk]; omega) har
          | datetime a b => subst a; exact absurd (by rw [b]; rfl) har
          | order a b => subst a; exact absurd (by rw [b]; rfl) har
        rw [h2] at this; exact Option.some.inj this
    | none =>
      have har := (checkArity_none op vs pos).1 h2
      have hty' := (checkValues_none op vs har).1 h1
      have noarity : ∀ {e'}, checkArity op vs pos = some e' → False := by
        intro e' h; rw [h2] at h; cases h
      dsimp only
      have rv : ∀ e', checkRVals E op vs = some e' ↔
          ∃ l v r w, vs = l ++ v :: r ∧ ListOk E op l ∧ w ∈ l ∧
          ((w.toStr E = v.toStr E ∧ e' = ⟨v.pos, "duplicate argument [".toList ++ v.toStr E ++ "]".toList ++
            valueNo (l.length + 1) vs.length⟩) ∨
           (op = .EQ ∧ v.toStr E ∉ l.map (Val.toStr E) ∧
            ((v.toStr E = "true".toList ∧ w.toStr E = "false".toList) ∨
              (v.toStr E = "false".toList ∧ w.toStr E = "true".toList)) ∧
            e' = ⟨v.pos, "conflicting boolean value [".toList ++ v.toStr E ++ "]".toList ++
              valueNo (l.length + 1) vs.length⟩)) := by
        intro e'
        unfold checkRVals
        by_cases hs : vs.length ≤ 1
        · rw [if_pos hs]
          simp only [reduceCtorEq, false_iff]
          rintro ⟨l, v, r, w, h, -, hw, -⟩
          rw [h] at hs
          have := List.length_pos_of_mem hw
          simp at hs
          omega
        · rw [if_neg hs]
          exact checkRValsLoop_iff (l := []) (by simp) ⟨by simp, by simp⟩
      cases h3 : checkRVals E op vs with
      | some e3 =>
        obtain ⟨l, v, r, w, h4, h5, h6, h7⟩ := (rv e3).1 h3
        simp only [Except.ok.injEq, Option.some.injEq]
        constructor
        · rintro rfl
          rcases h7 with ⟨h7, rfl⟩ | ⟨h7, h8, h9, rfl⟩
          · exact .duplicate hty' har h4 h5 h6 h7
          · exact .conflict h7 h4 h5 h8 h6 h9
        · intro h
          have hnl : ¬ ListOk E op vs := by
            intro h; rw [(checkRVals_none E op vs).2 h] at h3; cases h3
          have : checkRVals E op vs = some e := by
            cases h with
            | numeric a b c d => exact (novals b c d (.inl a)).elim
            | textual a b c d => exact (novals b c d (.inr a)).elim
            | noOperand a b => exact (noarity ((checkArity_iff hty).2 (.inl ⟨a, b, rfl⟩))).elim
            | oneOperand a b c => exact (noarity ((checkArity_iff hty).2 (.inr (.inl ⟨a, c, rfl⟩)))).elim
            | twoOperands a b c => exact (noarity ((checkArity_iff hty).2 (.inr (.inr (.inl ⟨a, c, rfl⟩))))).elim
            | someOperand a b => exact (noarity ((checkArity_iff hty).2 (.inr (.inr (.inr ⟨a, b, rfl⟩))))).elim
            | duplicate a b c d f g => exact (rv _).2 ⟨_, _, _, _, c, d, f, .inl ⟨g, rfl⟩⟩
            | conflict a b c d f g => exact (rv _).2 ⟨_, _, _, _, b, c, f, .inr ⟨a, d, g, rfl⟩⟩
            | datetime a b c => exact absurd c hnl
            | order a b c => exact absurd c hnl
          rw [h3] at this; exact Option.some.inj this
      | none =>
        have hl := (checkRVals_none E op vs).1 h3
        have norv : ∀ {e'}, checkRVals E op vs = some e' → False := by
          intro e' h; rw [h3] at h; cases h
        dsimp only
        constructor
        · intro h
          by_cases hop : op = .BET
          · subst hop
            obtain ⟨a, b, rfl⟩ := List.length_eq_two.1 har
            have ha := hty' a (by simp)
            have hb := hty' b (by simp)
            rcases (checkBetween_iff ha hb).1 h with ⟨h4, h5, rfl⟩ | ⟨h4, h5, rfl⟩
            · exact .datetime rfl rfl hl h4 h5 hb
            · exact .order rfl rfl hl ha hb h4 h5
          · simp [checkBetween, hop] at h
        · intro h
          cases h with
          | numeric a b c d => exact (novals b c d (.inl a)).elim
          | textual a b c d => exact (novals b c d (.inr a)).elim
          | noOperand a b => exact (noarity ((checkArity_iff hty).2 (.inl ⟨a, b, rfl⟩))).elim
          | oneOperand a b c => exact (noarity ((checkArity_iff hty).2 (.inr (.inl ⟨a, c, rfl⟩)))).elim
          | twoOperands a b c => exact (noarity ((checkArity_iff hty).2 (.inr (.inr (.inl ⟨a, c, rfl⟩))))).elim
          | someOperand a b => exact (noarity ((checkArity_iff hty).2 (.inr (.inr (.inr ⟨a, b, rfl⟩))))).elim
          | duplicate a b c d f g => exact (norv ((rv _).2 ⟨_, _, _, _, c, d, f, .inl ⟨g, rfl⟩⟩)).elim
          | conflict a b c d f g => exact (norv ((rv _).2 ⟨_, _, _, _, b, c, f, .inr ⟨a, d, g, rfl⟩⟩)).elim
          | datetime a b c d f g =>
            subst a; subst b
            exact (checkBetween_iff (hty' _ (by simp)) g).2 (.inl ⟨d, f, rfl⟩)
          | order a b c d f g h =>
            subst a; subst b
            exact (checkBetween_iff d f).2 (.inr ⟨g, h, rfl⟩)

end Aql
