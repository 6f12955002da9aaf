import Verif.Spec.Beginning
import Verif.Proofs.WantTrace
/-!
Literals that continue numbers, and the tests that fail within numbers.
-/

namespace Aql

open Spec

variable {E : Env} {ctx : Ctx} {fr fr' : VFrame} {pre s a b q w : Str} {f : Bool} {v : PV}

theorem roundQ_two67 : roundQ ((2 ^ 67 : ℤ) : ℚ) = 2 ^ 67 := by
  have : ((2 ^ 67 : ℤ) : ℚ) = ((1 : ℤ) : ℚ) * 2 ^ (67 : ℤ) := by norm_num
  rw [roundQ_exact 1 67 this]
  · norm_num
  · unfold quantum
    have : Int.log 2 |((2 ^ 67 : ℤ) : ℚ)| = 67 := by
      rw [abs_of_pos (by norm_num)]
      have := Int.log_zpow (R := ℚ) (b := 2) (by norm_num) 67
      rw [← this]; norm_num
    rw [this]; norm_num

/-- Ten times a value of 64-bit size does not overflow. -/
theorem toF64_tenfold {q : ℚ} (h : |q| ≤ 2 ^ 67) : toF64 q = .fin (roundQ q) := by
  have hb : |roundQ q| ≤ 2 ^ 67 := by
    rw [abs_le] at h ⊢
    constructor
    · have := roundQ_mono (p := -((2 ^ 67 : ℤ) : ℚ)) (q := q) (by push_cast; exact h.1)
      rw [roundQ_neg, roundQ_two67] at this; exact this
    · have := roundQ_mono (p := q) (q := ((2 ^ 67 : ℤ) : ℚ)) (by push_cast; exact h.2)
      rw [roundQ_two67] at this; exact this
  unfold toF64
  dsimp only
  rw [if_neg]
  rw [not_le]
  refine hb.trans_lt ?_
  have : (2 : ℚ) ^ (67 : ℤ) < 2 ^ (1024 : ℤ) := zpow_lt_zpow_right₀ (by norm_num) (by norm_num)
  rwa [show (67 : ℤ) = ((67 : ℕ) : ℤ) by norm_num, zpow_natCast] at this

theorem allDigits_zero : AllDigits ['0'] := by intro c hc; simp at hc; subst hc; decide

theorem allDigits_snoc {d : Str} (h : AllDigits d) : AllDigits (d ++ ['0']) := by
  intro c hc
  rcases List.mem_append.1 hc with hc | hc
  · exact h c hc
  · exact allDigits_zero c hc

theorem minus_sign {m : Str} (hm : Minus m) : ∃ neg, SignText m neg := by
  rcases hm with rfl | rfl
  · exact ⟨_, .none⟩
  · exact ⟨_, .minus⟩

/-- After the digits of an integer another digit can follow. -/
theorem lit_digit {m d : Str} {n : Int} (hm : Minus m) (hd : d ≠ []) (hd2 : AllDigits d)
    (hi : IntText (m ++ d) n) (h1 : -(2 ^ 63 : Int) ≤ n) (h2 : n < 2 ^ 63) :
    ∃ y, Lit E pre (m ++ (d ++ ['0', '.', '0'])) y := by
  obtain ⟨neg, hs⟩ := minus_sign hm
  have hd1 : DecText (m ++ d) ((if neg then -1 else 1) * ((digitsValue d : ℚ) + (digitsValue [] : ℚ) / 10 ^ 0) * (10 : ℚ) ^ (0 : Int)) :=
    ⟨m, neg, d, [], [], [], 0, hs, hd2, .none, .inl hd, .none, by simp, rfl⟩
  have e := Option.some.inj (((decimalValue_iff _ _).2 hd1).symm.trans ((decimalValue_iff _ _).2 (intText_decText hi)))
  have hd3 : DecText (m ++ (d ++ ['0', '.', '0'])) ((if neg then -1 else 1) *
      ((digitsValue (d ++ ['0']) : ℚ) + (digitsValue ['0'] : ℚ) / 10 ^ (['0'] : Str).length) * (10 : ℚ) ^ (0 : Int)) :=
    ⟨m, neg, d ++ ['0'], '.' :: ['0'], ['0'], [], 0, hs, allDigits_snoc hd2, .point allDigits_zero, .inl (by simp), .none, by simp, rfl⟩
  have e2 : (if neg then -1 else 1) * ((digitsValue (d ++ ['0']) : ℚ) + (digitsValue ['0'] : ℚ) / 10 ^ (['0'] : Str).length) *
      (10 : ℚ) ^ (0 : Int) = 10 * (n : ℚ) := by
    rw [← e, digitsValue_append]
    simp [digitsValue]
    ring_nf
  rw [e2] at hd3
  refine ⟨_, .float (a := d ++ ['0']) hm (by simp) (allDigits_snoc hd2) (by simp) allDigits_zero (by simp) hd3 (toF64_tenfold ?_)⟩
  have k1 : -(2 ^ 63 : ℚ) ≤ n := by exact_mod_cast h1
  have k2 : (n : ℚ) ≤ 2 ^ 63 := by exact_mod_cast h2.le
  rw [abs_le]
  constructor <;> norm_num at k1 k2 ⊢ <;> linarith

/-- The number read by the rule for numbers with a point. -/
theorem float_parts (h : RuleOk E ctx .FloatValue pre s v a b) : ∃ m p r y x, Minus m ∧ p ≠ [] ∧ AllDigits p ∧ r ≠ [] ∧ AllDigits r ∧
    a = m ++ (p ++ '.' :: r) ∧ DecText a y ∧ toF64 y = .fin x := by
  have hs := h.split
  unfold RuleOk at h
  simp only [grammar, ok_action, ok_seq, OkS] at h
  obtain ⟨_, _, ⟨_, m, _, _, h1, _, rfl, _, p, _, _, h2, _, rfl, _, _, _, _, h3, _, rfl, _, q, _, _, h4, _, rfl, rfl, rfl, rfl,
    rfl⟩, hr⟩ := h
  have hm := minus_of h1
  obtain ⟨-, -, hp, hp2, -⟩ := plus_digits h2
  obtain ⟨-, -, hq, hq2, -⟩ := plus_digits h4
  obtain ⟨-, rfl, -, -⟩ := ok_lit1.1 h3
  clear h1 h2 h3 h4
  have ha : m ++ (p ++ (['.'] ++ (q ++ []))) = m ++ (p ++ '.' :: q) := by simp
  rw [ha] at hr hs ⊢
  subst hs
  obtain ⟨y, hy, rfl⟩ := tokResult_ok hr
  have hh : NoHead (· = '\n') (m ++ (p ++ '.' :: q)) :=
    number_head hm hp2 hp fun c hc h => by subst h; revert hc; decide
  rw [getpos_head hh (by simp)] at hy
  obtain ⟨r, hd⟩ := decText_float hm hp hp2 hq2
  unfold newFloatVal parseFloat at hy
  rw [(decimalValue_iff _ r).2 hd] at hy
  cases hf : toF64 r with
  | fin x => exact ⟨m, p, q, r, x, hm, hp, hp2, hq, hq2, rfl, hd, hf⟩
  | _ => simp [hf] at hy

/-- After the last digit of a number with a point another digit can follow. -/
theorem lit_fraction {m p r : Str} {y x : ℚ} (hm : Minus m) (hp : p ≠ []) (hp2 : AllDigits p) (hr2 : AllDigits r)
    (hd : DecText (m ++ (p ++ '.' :: r)) y) (hf : toF64 y = .fin x) : ∃ z, Lit E pre (m ++ (p ++ '.' :: (r ++ ['0']))) z := by
  obtain ⟨neg, hs⟩ := minus_sign hm
  have hd1 : DecText (m ++ (p ++ '.' :: r)) ((if neg then -1 else 1) * ((digitsValue p : ℚ) + (digitsValue r : ℚ) / 10 ^ r.length) * (10 : ℚ) ^ (0 : Int)) :=
    ⟨m, neg, p, '.' :: r, r, [], 0, hs, hp2, .point hr2, .inl hp, .none, by simp, rfl⟩
  have e := Option.some.inj (((decimalValue_iff _ _).2 hd1).symm.trans ((decimalValue_iff _ _).2 hd))
  have hd3 : DecText (m ++ (p ++ '.' :: (r ++ ['0']))) ((if neg then -1 else 1) *
      ((digitsValue p : ℚ) + (digitsValue (r ++ ['0']) : ℚ) / 10 ^ (r ++ ['0']).length) * (10 : ℚ) ^ (0 : Int)) :=
    ⟨m, neg, p, '.' :: (r ++ ['0']), r ++ ['0'], [], 0, hs, hp2, .point (allDigits_snoc hr2), .inl hp, .none, by simp, rfl⟩
  have e2 : (digitsValue (r ++ ['0']) : ℚ) / 10 ^ (r ++ ['0']).length = (digitsValue r : ℚ) / 10 ^ r.length := by
    rw [digitsValue_append, List.length_append, pow_add]
    have : (10 : ℚ) ^ r.length ≠ 0 := by positivity
    simp [digitsValue]
    field_simp
  rw [e2, e] at hd3
  exact ⟨_, .float hm hp hp2 (by simp) (allDigits_snoc hr2) rfl hd3 hf⟩

/-- A literal can go on from `q` with what is wanted, or something with the shape of a time or a network can. -/
def InsideW (E : Env) (pre q : Str) (f : Bool) (w : Str) : Prop :=
  f = false ∧ ∃ x y T, q = pre ++ x ∧ readWant w = some T ∧ T.Begins E y ∧
    ((∃ v, Lit E pre (x ++ y) v) ∨ (ShapeSign w ∧ (StampShape E (x ++ y) ∨ DateShape (x ++ y) ∨ NetShape (x ++ y))))

/-- All tests of an expression have a property. -/
inductive Only (P : Str → Prop) : PExpr → Prop
  | lit {t ic w} : P w → Only P (.lit t ic w)
  | cls {cs rs ic inv w} : P w → Only P (.cls cs rs ic inv w)
  | seq {es} : (∀ e ∈ es, Only P e) → Only P (.seq es)
  | choice {es} : (∀ e ∈ es, Only P e) → Only P (.choice es)
  | rule {x} : Only P (grammar x) → Only P (.rule x)
  | opt {e} : Only P e → Only P (.opt e)
  | plus {e} : Only P e → Only P (.plus e)

theorem Only.want {P : Str → Prop} {e : PExpr} (h : Only P e) (hc : ctx.inv = false) : ∀ {fr pre s},
    Want E ctx e fr pre s q f w → P w := by
  induction h with
  | lit h =>
    intro _ _ _ k
    obtain ⟨-, -, rfl⟩ := want_lit hc k
    exact h
  | cls h =>
    intro _ _ _ k
    obtain ⟨-, -, rfl⟩ := want_cls hc k
    exact h
  | @seq es _ ih =>
    intro _ _ _ k
    replace k := want_seq k
    have key : ∀ {es : List PExpr} {fr pre s}, (∀ e ∈ es, ∀ {fr pre s}, Want E ctx e fr pre s q f w → P w) →
        WantS E ctx es fr pre s q f w → P w := by
      intro es
      induction es with
      | nil => intro _ _ _ _ h; exact h.elim
      | cons e es ih2 =>
        rintro _ _ _ ih (⟨h, -⟩ | ⟨_, a1, b1, _, h1, h⟩)
        · exact ih e (by simp) h
        · exact ih2 (fun e he => ih e (by simp [he])) h
    exact key ih k
  | @choice es _ ih =>
    intro _ _ _ k
    replace k := want_choice k
    have key : ∀ {es : List PExpr} {pre s}, (∀ e ∈ es, ∀ {fr pre s}, Want E ctx e fr pre s q f w → P w) →
        WantC E ctx es pre s q f w → P w := by
      intro es
      induction es with
      | nil => intro _ _ _ h; exact h.elim
      | cons e es ih2 =>
        rintro _ _ ih (h | ⟨-, -, h⟩)
        · exact ih e (by simp) h
        · exact ih2 (fun e he => ih e (by simp [he])) h
    exact key ih k
  | rule _ ih => intro _ _ _ k; exact ih (want_rule k)
  | opt _ ih => intro _ _ _ k; exact ih (want_opt k)
  | plus _ ih =>
    intro _ _ _ k
    obtain ⟨_, _, -, k, -⟩ := want_plus k
    exact ih k

/-- Go through the tests of an expression. -/
macro "only" : tactic => `(tactic| (
  repeat' first
    | refine Only.cls (by unfold ShapeSign; decide +kernel)
    | refine Only.lit (by unfold ShapeSign; decide +kernel)
    | refine Only.rule ?_
    | refine Only.plus ?_
    | refine Only.opt ?_
    | refine Only.seq ?_
    | refine Only.choice ?_
    | exact fun _ h => absurd h List.not_mem_nil
    | refine List.forall_mem_cons.2 ⟨?_, ?_⟩
    ))

theorem only_time : Only ShapeSign (.choice [.rule .dateTime, .rule .fullDate]) := by only
theorem only_ip : Only ShapeSign ipExpr := by unfold ipExpr; only

theorem want_time (hc : ctx.inv = false) (h : Want E ctx (.rule .Timestamp) fr pre s q f w) : InsideW E pre q f w := by
  obtain ⟨hf, x, y, T, hq, hg, hT, hb⟩ := full_time.want (by decide +kernel) hc (want_action (want_rule h))
  refine ⟨hf, x, y, T, hq, hT, hb, .inr ⟨only_time.want hc (want_action (want_rule h)), ?_⟩⟩
  obtain ⟨e, he, h⟩ := gen_choice.1 hg
  simp only [List.mem_cons, List.not_mem_nil, or_false] at he
  rcases he with rfl | rfl
  · exact .inl (gen_stamp h)
  · exact .inr (.inl (gen_date h))

theorem want_ip (hc : ctx.inv = false) (h : Want E ctx (.rule .IPValue) fr pre s q f w) : InsideW E pre q f w := by
  obtain ⟨hf, x, y, T, hq, hg, hT, hb⟩ := full_ip.want (by decide +kernel) hc (want_action (want_rule h))
  exact ⟨hf, x, y, T, hq, hT, hb, .inr ⟨only_ip.want hc (want_action (want_rule h)), .inr (.inr (gen_net hg))⟩⟩

theorem begins_lit {t y : Str} : (Terminal.lit t false).Begins E (t ++ y) := ⟨t, y, rfl, by simp⟩

theorem read_minus : readWant "\"-\"".toList = some (.lit ['-'] false) := by decide +kernel
theorem read_point : readWant "\".\"".toList = some (.lit ['.'] false) := by decide +kernel
theorem read_digit : readWant "[0-9]".toList = some (.cls [] [('0', '9')] false false) := by decide +kernel

theorem begins_digit {c : Char} {y : Str} (h : Dig c) : (Terminal.cls [] [('0', '9')] false false).Begins E (c :: y) :=
  cls_begins.2 ⟨c, y, rfl, cls_dig.2 h⟩

theorem want_sign (hc : ctx.inv = false) (h : Want E ctx (.opt (.lit ['-'] false "\"-\"".toList)) fr pre s q f w) : InsideW E pre q f w := by
  obtain ⟨rfl, rfl, rfl⟩ := want_lit hc (want_opt h)
  exact ⟨rfl, [], ['-', '1'], _, by simp, read_minus, begins_lit (t := ['-']), .inl ⟨_, lit_minus⟩⟩

/-- A digit is wanted where there is none: after none or after all. -/
theorem want_digits (hc : ctx.inv = false) (h : Want E ctx (.plus digit) fr pre s q f w) : f = false ∧ w = "[0-9]".toList ∧
    ((q = pre ∧ No E ctx (.plus digit) fr pre s) ∨ ∃ v a b, Ok E ctx (.plus digit) fr pre s v a b fr ∧ q = pre ++ a) := by
  have hd := ask_done h.ask
  obtain ⟨x, y, hr, h1, h2⟩ := want_plus h
  obtain ⟨rfl, rfl, rfl⟩ := want_cls hc h1
  have hn : No E ctx digit [] (pre ++ x) y := want_cls_no hc h1
  refine ⟨rfl, rfl, ?_⟩
  rcases hd with ⟨v, a, b, g, hk⟩ | (hn2 : No E ctx (.plus digit) fr pre s)
  · have hg := (plus_digits hk).1
    subst hg
    right
    refine ⟨v, a, b, hk, ?_⟩
    obtain ⟨-, vs, -, hk, -⟩ := ok_plus.1 hk
    obtain ⟨vs', c, rfl, hk2⟩ := row_prefix hr hk
    generalize hx : pre ++ x = px at hk2 hn
    cases hk2 with
    | nil _ => rw [← hx]; simp
    | cons h3 _ => exact (h3.clash hn).elim
  · left
    generalize hz : pre ++ x = px
    cases hr with
    | nil => exact ⟨by rw [← hz]; simp, hn2⟩
    | cons h3 _ => exact (h3.clash (no_plus.1 hn2)).elim

theorem insideW_sign {w0 : Str} (h : Ok E ctx (.opt (.lit ['-'] false w0)) fr pre s v a b fr') :
    InsideW E pre (pre ++ a) false "[0-9]".toList := by
  refine ⟨rfl, a, ['1'], _, rfl, read_digit, begins_digit (by decide), .inl ?_⟩
  rcases minus_of h with rfl | rfl
  · exact ⟨_, lit_one⟩
  · exact ⟨_, lit_minus⟩

theorem want_int (hc : ctx.inv = false) (h : Want E ctx (.rule .IntValue) fr pre s q f w) : InsideW E pre q f w := by
  have hd := ask_done h.ask
  have h2 := want_seq (want_action (grammar_int ▸ want_rule h))
  rcases h2 with ⟨h, -⟩ | ⟨_, m, _, _, h0, ⟨h, -⟩ | ⟨_, _, _, _, h1, h⟩⟩
  · exact want_sign hc h
  · obtain ⟨rfl, rfl, ⟨rfl, -⟩ | ⟨_, d, b1, h1, rfl⟩⟩ := want_digits hc h
    · exact insideW_sign h0
    · obtain ⟨-, e1, hd1, hd2, -⟩ := plus_digits h1
      rcases hd with ⟨v, a, b, g, hk⟩ | hn
      · obtain ⟨x, -, hx⟩ := int_lit (okR.1 hk).2
        obtain ⟨-, _, hk⟩ := ok_rule.1 hk
        rw [grammar_int, ok_action] at hk
        obtain ⟨_, hk, -⟩ := hk
        simp only [ok_seq, OkS] at hk
        obtain ⟨_, _, _, _, k1, _, rfl, _, t, _, _, k2, _, rfl, rfl, rfl, -⟩ := hk
        obtain ⟨-, rfl, rfl, rfl⟩ := h0.det k1
        obtain ⟨-, rfl, rfl, rfl⟩ := h1.det k2
        rw [List.append_nil] at hx
        obtain ⟨n, k1, k2, k3, -⟩ := lit_int (minus_of h0) hd1 hd2 hx
        obtain ⟨y, hy⟩ := lit_digit (E := E) (pre := pre) (minus_of h0) hd1 hd2 k1 k2 k3
        exact ⟨rfl, m ++ d, ['0', '.', '0'], _, by simp, read_digit, begins_digit (by decide), .inl ⟨y, by simpa using hy⟩⟩
      · exact (int_head hn (t := b1) (minus_of h0) hd2 hd1 (by rw [← e1]; exact h0.1)).elim
  · exact h.elim

/-- The rules for numbers, in their order. -/
theorem want_float (hc : ctx.inv = false) (h : Want E ctx (.rule .FloatValue) fr pre s q f w)
    (hi : RuleNo E ctx .FloatValue pre s → (∃ v a b, RuleOk E ctx .IntValue pre s v a b) ∨ RuleNo E ctx .IntValue pre s) :
    InsideW E pre q f w := by
  have hd := ask_done h.ask
  have h2 := want_seq (want_action (grammar_float ▸ want_rule h))
  -- the whole number, if there is one
  have whole : ∀ {v1 v2 m b1 g1 d b2 g2}, Ok E ctx (.opt (.lit ['-'] false "\"-\"".toList)) [] pre s v1 m b1 g1 →
      Ok E ctx (.plus digit) g1 (pre ++ m) b1 v2 d b2 g2 → (∀ r, b2 = '.' :: r → No E ctx (.plus digit) g2 (pre ++ m ++ d ++ ['.']) r) →
      ∃ n, IntText (m ++ d) n ∧ -(2 ^ 63 : Int) ≤ n ∧ n < 2 ^ 63 := by
    intro v1 v2 m b1 g1 d b2 g2 h0 h1 h3
    obtain ⟨-, e1, hd1, hd2, -⟩ := plus_digits h1
    have hn : RuleNo E ctx .FloatValue pre s := by
      rcases hd with ⟨_, _, _, _, hk⟩ | hn
      · exfalso
        obtain ⟨-, _, hk⟩ := ok_rule.1 hk
        rw [grammar_float, ok_action] at hk
        obtain ⟨_, hk, -⟩ := hk
        simp only [ok_seq, OkS] at hk
        obtain ⟨_, _, _, _, k1, _, rfl, _, _, _, _, k2, _, rfl, _, _, _, _, k3, _, rfl, _, _, _, _, k4, -⟩ := hk
        obtain ⟨-, rfl, rfl, rfl⟩ := h0.det k1
        obtain ⟨-, rfl, rfl, rfl⟩ := h1.det k2
        obtain ⟨rfl, rfl, e, -⟩ := ok_lit1.1 k3
        exact k4.clash (h3 _ e)
      · exact noR.1 hn
    rcases hi hn with ⟨v, a, b, hi⟩ | hi
    · obtain ⟨x, -, hx⟩ := int_lit hi
      obtain ⟨_, hi⟩ := hi
      rw [grammar_int, ok_action] at hi
      obtain ⟨_, hi, -⟩ := hi
      simp only [ok_seq, OkS] at hi
      obtain ⟨_, _, _, _, k1, _, rfl, _, t, _, _, k2, _, rfl, rfl, rfl, -⟩ := hi
      obtain ⟨-, rfl, rfl, rfl⟩ := h0.det k1
      obtain ⟨-, rfl, rfl, rfl⟩ := h1.det k2
      rw [List.append_nil] at hx
      obtain ⟨n, h1, h2, h3, -⟩ := lit_int (minus_of h0) hd1 hd2 hx
      exact ⟨n, h1, h2, h3⟩
    · exact (int_head (noR.2 hi : No E ctx (.rule .IntValue) [] pre s) (t := b2) (minus_of h0) hd2 hd1 (by rw [← e1]; exact h0.1)).elim
  rcases h2 with ⟨h, -⟩ | ⟨_, m, _, _, h0, ⟨h, hL⟩ | ⟨_, d, _, _, h1, ⟨h, hL⟩ | ⟨_, _, _, _, h2, ⟨h, -⟩ | ⟨_, _, _, _, -, h⟩⟩⟩⟩
  · exact want_sign hc h
  · obtain ⟨rfl, rfl, ⟨rfl, -⟩ | ⟨_, d, b1, h1, rfl⟩⟩ := want_digits hc h
    · exact insideW_sign h0
    · obtain ⟨-, e1, hd1, hd2, -⟩ := plus_digits h1
      obtain ⟨n, k1, k2, k3⟩ := whole h0 h1 fun r hr => by
        exfalso
        have := (hL _ _ _ _ h1).2 _ _ _ _ (ok_lit1.2 ⟨rfl, rfl, hr, rfl⟩)
        have := lim_digits hc this.1
        rw [bytes_append] at this
        have := bytesOf_pos (c := '.') (s := [])
        omega
      obtain ⟨y, hy⟩ := lit_digit (E := E) (pre := pre) (minus_of h0) hd1 hd2 k1 k2 k3
      exact ⟨rfl, m ++ d, ['0', '.', '0'], _, by simp, read_digit, begins_digit (by decide), .inl ⟨y, by simpa using hy⟩⟩
  · have hn := no_lit1.1 (want_lit_no hc h)
    obtain ⟨-, e1, hd1, hd2, -⟩ := plus_digits h1
    obtain ⟨n, k1, k2, k3⟩ := whole h0 h1 fun r hr => (hn _ _ hr rfl).elim
    obtain ⟨y, hy⟩ := lit_point (E := E) (pre := pre) (minus_of h0) hd1 hd2 k1 k2 k3
    obtain ⟨rfl, rfl, rfl⟩ := want_lit hc h
    exact ⟨rfl, m ++ d, ['.', '0'], _, by simp, read_point, begins_lit (t := ['.']), .inl ⟨y, by simpa using hy⟩⟩
  · obtain ⟨rfl, rfl, rfl, -⟩ := ok_lit1.1 h2
    obtain ⟨-, e1, hd1, hd2, -⟩ := plus_digits h1
    obtain ⟨rfl, rfl, ⟨rfl, hn⟩ | ⟨_, r, b1, h3, rfl⟩⟩ := want_digits hc h
    · obtain ⟨n, k1, k2, k3⟩ := whole h0 h1 fun r hr => by cases hr; exact hn
      obtain ⟨y, hy⟩ := lit_point (E := E) (pre := pre) (minus_of h0) hd1 hd2 k1 k2 k3
      exact ⟨rfl, m ++ (d ++ ['.']), ['0'], _, by simp, read_digit, begins_digit (by decide), .inl ⟨y, by simpa using hy⟩⟩
    · rcases hd with ⟨_, a, _, _, hk⟩ | hn
      · obtain ⟨m', p', r', y, x, j1, j2, j3, j4, j5, j6, j7, j8⟩ := float_parts (okR.1 hk).2
        obtain ⟨-, _, hk⟩ := ok_rule.1 hk
        rw [grammar_float, ok_action] at hk
        obtain ⟨_, hk, -⟩ := hk
        simp only [ok_seq, OkS] at hk
        obtain ⟨_, _, _, _, k1, _, rfl, _, _, _, _, k2, _, rfl, _, _, _, _, k3, _, rfl, _, _, _, _, k4, _, rfl, rfl, -⟩ := hk
        obtain ⟨-, rfl, rfl, rfl⟩ := h0.det k1
        obtain ⟨-, rfl, rfl, rfl⟩ := h1.det k2
        obtain ⟨-, e4, rfl, rfl⟩ := h2.det k3
        rw [← e4] at k4 j7
        obtain ⟨-, rfl, rfl, rfl⟩ := h3.det k4
        obtain ⟨-, -, hr1, hr2, -⟩ := plus_digits h3
        obtain ⟨z, hz⟩ := lit_fraction (E := E) (pre := pre) (r := r) (minus_of h0) hd1 hd2 hr2 (by simpa using j7) j8
        exact ⟨rfl, m ++ (d ++ '.' :: r), ['0'], _, by simp, read_digit, begins_digit (by decide), .inl ⟨z, by simpa using hz⟩⟩
      · exfalso
        have hn := noR.1 hn
        unfold RuleNo at hn
        rw [grammar_float, no_action] at hn
        simp only [no_seq, NoS, no_opt] at hn
        obtain hn | ⟨_, _, _, _, l0, hn | ⟨_, _, _, _, l1, hn | ⟨_, _, _, _, l2, hn | ⟨_, _, _, _, -, hn⟩⟩⟩⟩ := hn
        · exact hn.elim
        · obtain ⟨-, rfl, rfl, rfl⟩ := h0.det l0
          exact h1.clash hn
        · obtain ⟨-, rfl, rfl, rfl⟩ := h0.det l0
          obtain ⟨-, rfl, rfl, rfl⟩ := h1.det l1
          exact h2.clash hn
        · obtain ⟨-, rfl, rfl, rfl⟩ := h0.det l0
          obtain ⟨-, rfl, rfl, rfl⟩ := h1.det l1
          obtain ⟨-, rfl, rfl, rfl⟩ := h2.det l2
          exact h3.clash hn
        · exact hn.elim
  · exact h.elim

end Aql
