import Verif.Spec.Reread
import Verif.Proofs.FormatText
import Verif.Proofs.Layout
import Verif.Proofs.LexBare
import Verif.Proofs.LexString
import Mathlib.Tactic.IntervalCases
/-!
The printed form of a comparison, read again.
-/

namespace Aql

open Spec

variable {E : Env}

theorem hexVal_digit {d : Nat} (h : d < 16) : HexVal (hexDigit d) d := by
  by_cases h1 : d < 10
  · have : HexVal (hexDigit d) ((hexDigit d).toNat - 48) := by
      refine .digit ?_ ?_ <;> interval_cases d <;> decide
    have h2 : (hexDigit d).toNat - 48 = d := by interval_cases d <;> decide
    rwa [h2] at this
  · have : HexVal (hexDigit d) ((hexDigit d).toNat - 87) := by
      refine .lower ?_ ?_ <;> interval_cases d <;> first | decide | omega
    have h2 : (hexDigit d).toNat - 87 = d := by interval_cases d <;> first | decide | omega
    rwa [h2] at this

theorem hexDigits_four (v : Nat) : hexDigits 4 v =
    [hexDigit (v / 4096 % 16), hexDigit (v / 256 % 16), hexDigit (v / 16 % 16), hexDigit (v % 16)] := by
  simp [hexDigits, Nat.div_div_eq_div_mul]

theorem strBody_hex {c : Char} {s x : Str} (h : c.toNat < 0x10000) (hb : StrBody s x) :
    StrBody ('\\' :: 'u' :: (hexDigits 4 c.toNat ++ s)) (c :: x) := by
  rw [hexDigits_four]
  have := StrBody.unicode (s := s) (x := x) (v := c.toNat)
    (hexVal_digit (d := c.toNat / 4096 % 16) (Nat.mod_lt _ (by decide)))
    (hexVal_digit (d := c.toNat / 256 % 16) (Nat.mod_lt _ (by decide)))
    (hexVal_digit (d := c.toNat / 16 % 16) (Nat.mod_lt _ (by decide)))
    (hexVal_digit (d := c.toNat % 16) (Nat.mod_lt _ (by decide))) (by omega) c.valid hb
  rwa [Char.ofNat_toNat] at this

theorem val_eq {c : Char} {n : UInt32} : c.val = n ↔ c.toNat = n.toNat := UInt32.toNat_inj.symm

theorem strBody_quoteChar {c : Char} {s x : Str} (h : WritableChar E c) (hb : StrBody s x) :
    StrBody (quoteChar E c ++ s) (c :: x) := by
  have key : ∀ {k d : Char}, Escape k d → c.toNat = d.toNat → StrBody (['\\', k] ++ s) (c :: x) := by
    intro k d h1 h2
    rw [Char.toNat_inj.1 h2]
    exact .escape h1 hb
  unfold quoteChar
  by_cases h1 : c = '"'
  · rw [if_pos h1]; exact key .quote (by rw [h1])
  rw [if_neg h1]
  by_cases h2 : c = '\\'
  · rw [if_pos h2]; exact key .backslash (by rw [h2])
  rw [if_neg h2]
  simp only [WritableChar, List.mem_cons, List.not_mem_nil, or_false] at h
  simp only [val_eq, UInt32.lt_iff_toNat_lt]
  have e : c.val.toNat = c.toNat := rfl
  simp only [e, show (7 : UInt32).toNat = 7 from rfl, show (8 : UInt32).toNat = 8 from rfl,
    show (12 : UInt32).toNat = 12 from rfl, show (10 : UInt32).toNat = 10 from rfl,
    show (13 : UInt32).toNat = 13 from rfl, show (9 : UInt32).toNat = 9 from rfl,
    show (11 : UInt32).toNat = 11 from rfl, show (32 : UInt32).toNat = 32 from rfl,
    show (127 : UInt32).toNat = 127 from rfl, show (128 : UInt32).toNat = 128 from rfl,
    show (0x10000 : UInt32).toNat = 0x10000 from rfl]
  rw [if_neg (by omega)]
  by_cases h4 : c.toNat = 8
  · rw [if_pos h4]; exact key .b h4
  rw [if_neg h4]
  by_cases h5 : c.toNat = 12
  · rw [if_pos h5]; exact key .f h5
  rw [if_neg h5]
  by_cases h6 : c.toNat = 10
  · rw [if_pos h6]; exact key .n h6
  rw [if_neg h6]
  by_cases h7 : c.toNat = 13
  · rw [if_pos h7]; exact key .r h7
  rw [if_neg h7]
  by_cases h8 : c.toNat = 9
  · rw [if_pos h8]; exact key .t h8
  rw [if_neg h8, if_neg (by omega), if_neg (by omega)]
  have h9 : 32 ≤ c.toNat := by omega
  by_cases h11 : c.toNat < 128
  · rw [if_pos h11]; exact .plain h1 h2 h9 hb
  rw [if_neg h11]
  by_cases h12 : E.isPrint c = true
  · rw [if_pos h12]; exact .plain h1 h2 h9 hb
  rw [if_neg h12]
  have h13 : c.toNat < 0x10000 := by
    rcases h with ⟨-, -, h | h⟩ | h
    · exact h
    · exact absurd h h12
    · omega
  rw [if_pos h13]
  exact strBody_hex h13 hb

theorem strBody_quote {x : Str} (h : ∀ c ∈ x, WritableChar E c) :
    StrBody (x.flatMap (quoteChar E)) x := by
  induction x with
  | nil => exact .nil
  | cons c x ih =>
    rw [List.flatMap_cons]
    exact strBody_quoteChar (h c (by simp)) (ih fun d hd => h d (by simp [hd]))

theorem not_nameChar {c : Char} (h : c = ' ' ∨ c = '.' ∨ c = '"' ∨ c = '*') : ¬ FieldChar E c := by
  rcases h with rfl | rfl | rfl | rfl <;>
    (unfold FieldChar; rw [goLower_ascii (by decide)]; decide)

theorem writableName_piece {x : Str} (h : WritableName E x) : Piece E (fieldPiece E x) x := by
  unfold fieldPiece
  rcases h with ⟨h1, h2⟩ | ⟨⟨c, hc, h1⟩, h2⟩
  · have : needsQuote x = false := by
      unfold needsQuote
      rw [List.any_eq_false]
      intro c hc he
      simp only [Bool.or_eq_true, beq_iff_eq] at he
      exact not_nameChar (by tauto) (h2 c hc)
    rw [this]
    exact .bare h1 h2
  · have : needsQuote x = true := by
      unfold needsQuote
      rw [List.any_eq_true]
      exact ⟨c, hc, by simp only [Bool.or_eq_true, beq_iff_eq]; tauto⟩
    rw [this]
    exact .quoted (strBody_quote h2)

theorem writableName_star {x : Str} (h : WritableName E x) : x ≠ ['*'] := by
  rintro rfl
  rcases h with ⟨-, h2⟩ | ⟨⟨c, hc, h1⟩, -⟩
  · exact not_nameChar (E := E) (c := '*') (by simp) (h2 _ (by simp))
  · rw [List.mem_singleton] at hc
    subst hc
    revert h1; decide

theorem fieldString_path {f : List Str} (hf : f ≠ []) (h : ∀ x ∈ f, WritableName E x) :
    Path E (fieldString E f) f := by
  induction f with
  | nil => exact absurd rfl hf
  | cons x f ih =>
    cases f with
    | nil => exact .one (writableName_piece (h x (by simp)))
    | cons y f =>
      exact .cons (writableName_piece (h x (by simp))) (ih (by simp) fun z hz => h z (by simp [hz]))

theorem withoutStars_self {f : List Str} (h : ∀ x ∈ f, WritableName E x) : withoutStars f = f :=
  List.filter_eq_self.2 fun x hx => by simpa using writableName_star (h x hx)

theorem writableVal_lit {v : Val} (h : WritableVal E v) :
    ∃ w, Lit E [] (v.toStr E) w ∧ unplaced w = unplaced v := by
  obtain ⟨⟨t, w, h1, h2⟩, h3⟩ := h
  cases h1 with
  | string hb ht =>
    cases v <;> simp only [unplaced, reduceCtorEq, Val.str.injEq] at h2
    exact ⟨_, .string (strBody_quote h3) rfl, rfl⟩
  | regex a b c d e =>
    cases v <;> simp only [unplaced, reduceCtorEq, Val.regex.injEq] at h2
    obtain ⟨rfl, rfl, -⟩ := h2
    obtain ⟨s, h4, h5, h6⟩ := h3
    exact ⟨_, .regex h4 h5 h6 d e, rfl⟩
  | stamp a =>
    cases v <;> simp only [unplaced, reduceCtorEq, Val.time.injEq] at h2
    obtain ⟨rfl, rfl, rfl, -⟩ := h2
    exact ⟨_, .stamp a, rfl⟩
  | day a =>
    cases v <;> simp only [unplaced, reduceCtorEq, Val.time.injEq] at h2
    obtain ⟨rfl, rfl, rfl, -⟩ := h2
    exact ⟨_, .day a, rfl⟩
  | address a =>
    cases v <;> simp only [unplaced, reduceCtorEq, Val.net.injEq] at h2
    obtain ⟨rfl, rfl, -⟩ := h2
    exact ⟨_, .block (n := 32) a (by decide) rfl, rfl⟩
  | block a b c =>
    cases v <;> simp only [unplaced, reduceCtorEq, Val.net.injEq] at h2
    obtain ⟨rfl, rfl, -⟩ := h2
    exact ⟨_, .block a b c, rfl⟩
  | @float _ m0 _ _ _ x _ _ _ _ _ _ _ h8 =>
    cases v <;> simp only [unplaced, reduceCtorEq, Val.float.injEq] at h2
    rename_i f z p
    obtain ⟨rfl, hz, -⟩ := h2
    have hint : ¬ ∃ i : ℤ, x = i := fun ⟨i, hi⟩ => h3 i (by rw [hi])
    have hx0 : x ≠ 0 := fun hc => hint ⟨0, by simpa using hc⟩
    obtain ⟨m, a, r, q, k1, k2, k3, k4, k5, k6, k7, k8⟩ := formatFloat_reads z (toF64_isDouble h8)
    rcases k4 with rfl | ⟨b, k4, k4', rfl⟩
    · exact absurd (k8.2 rfl) hint
    refine ⟨_, .float k1 k2 k3 k4 k4' k5 k6 k7, ?_⟩
    have hz : z = false := by rw [← hz]; simp [hx0]
    rw [hz]
    simp [unplaced, hx0]
  | int a b c d e f g =>
    cases v <;> simp only [unplaced, reduceCtorEq, Val.int.injEq] at h2
    obtain ⟨rfl, rfl, -⟩ := h2
    exact ⟨_, .int a b c d e f g, rfl⟩
  | true_ =>
    cases v <;> simp only [unplaced, reduceCtorEq, Val.bool.injEq] at h2
    obtain ⟨rfl, -⟩ := h2
    exact ⟨_, .true_, rfl⟩
  | false_ =>
    cases v <;> simp only [unplaced, reduceCtorEq, Val.bool.injEq] at h2
    obtain ⟨rfl, -⟩ := h2
    exact ⟨_, .false_, rfl⟩

theorem writable_items {vs : List Val} (hne : vs ≠ []) (h : ∀ v ∈ vs, WritableVal E v) :
    ∃ ls, LaidItems E ls (joinVals E ",".toList vs) ∧ ls.map (fun l => unplaced l.2) = vs.map unplaced := by
  induction vs with
  | nil => exact absurd rfl hne
  | cons v vs ih =>
    obtain ⟨w, h1, h2⟩ := writableVal_lit (h v (by simp))
    cases vs with
    | nil => exact ⟨[(_, w)], .one h1, by simp [h2]⟩
    | cons v' vs =>
      obtain ⟨ls, h3, h4⟩ := ih (by simp) fun u hu => h u (by simp [hu])
      refine ⟨(v.toStr E, w) :: ls, ?_, by rw [List.map_cons, List.map_cons, h4, h2]⟩
      have := LaidItems.cons (w1 := []) (w2 := []) h1 (by intro c hc; cases hc) (by intro c hc; cases hc) h3
      simpa [joinVals] using this

/-- The values as printed by `friendlyString`. -/
def friendlyVals (E : Env) : List Val → Str
  | [] => []
  | [v] => v.toStr E
  | vs => "(".toList ++ joinVals E ",".toList vs ++ ")".toList

theorem writable_values {vs : List Val} (hne : vs ≠ []) (h : ∀ v ∈ vs, WritableVal E v) :
    ∃ ls, LaidValues E ls (friendlyVals E vs) ∧ ls.map (fun l => unplaced l.2) = vs.map unplaced := by
  match vs, hne with
  | [v], _ =>
    obtain ⟨w, h1, h2⟩ := writableVal_lit (h v (by simp))
    exact ⟨[(_, w)], .one h1, by simp [h2]⟩
  | v :: v' :: vs, _ =>
    obtain ⟨ls, h1, h2⟩ := writable_items (by simp) h
    have hl := congrArg List.length h2
    simp only [List.length_map, List.length_cons] at hl
    refine ⟨ls, ?_, h2⟩
    have := LaidValues.list (w1 := []) (w2 := []) (by omega) (by intro c hc; cases hc) h1
      (by intro c hc; cases hc)
    simpa [friendlyVals] using this

theorem friendlyString_eq (op : Op) (f : List Str) (vs : List Val) : friendlyString E op f vs =
    fieldString E f ++ (':' :: ((if op = .EQ then [] else op.text) ++ (' ' :: friendlyVals E vs))) := by
  unfold friendlyString
  match vs with
  | [] => simp [friendlyVals]
  | [v] => simp [friendlyVals]
  | v :: v' :: vs => simp [friendlyVals]

theorem space_ws : Ws [' '] := by decide

theorem opText_friendly {op : Op} (h : op ≠ .EXS ∧ op ≠ .NUL) :
    OpText (if op = .EQ then [] else op.text) op := by
  cases op <;> first | constructor | exact absurd rfl h.1 | exact absurd rfl h.2

theorem friendly_laid {op : Op} {f : List Str} {vs : List Val} (hf : f ≠ [])
    (hn : ∀ x ∈ f, WritableName E x) (ha : vs = [] ↔ op = .EXS ∨ op = .NUL)
    (hv : ∀ v ∈ vs, WritableVal E v) :
    ∃ c, LaidOut E c (friendlyString E op f vs) ∧ c.tree = bare (.expr op f vs noPosition) := by
  have hp := fieldString_path hf hn
  have hw : Ws [] := by decide
  rw [friendlyString_eq]
  by_cases h : op = .EXS ∨ op = .NUL
  · have := ha.2 h
    subst this
    have ho : NoArgOp op.text op ∧ op ≠ .EQ := by
      rcases h with rfl | rfl
      · exact ⟨.exists_, by decide⟩
      · exact ⟨.null, by decide⟩
    refine ⟨.noArgs _ f _ op, ⟨[], _, [' '], hw, space_ws,
      .andOr (.notAnd (.cmpNot (.noArgs (w1 := []) (w2 := []) hp ho.1 hw hw))), ?_⟩, ?_⟩
    · simp [friendlyVals, ho.2]
    · simp [Cst.tree, bare, withoutStars_self hn]
  · obtain ⟨ls, h1, h2⟩ := writable_values (fun e => h (ha.1 e)) hv
    refine ⟨.compare _ f _ op ls, ⟨[], _, [], hw, hw,
      .andOr (.notAnd (.cmpNot (.compare (w1 := []) (w2 := []) hp (opText_friendly (by tauto)) h1 hw hw
        space_ws))), ?_⟩, ?_⟩
    · simp
    · simp [Cst.tree, bare, withoutStars_self hn, h2]

end Aql
