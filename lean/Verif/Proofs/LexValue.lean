import Verif.Proofs.LexBare
/-!
Clean runs of the rules for addresses, numbers, booleans and values.
-/

namespace Aql

open Spec

variable {E : Env} {ctx : Ctx} {fr fr' : VFrame} {pre s a b : Str} {v : PV}

theorem AllDigits.append {p q : Str} (hp : AllDigits p) (hq : AllDigits q) : AllDigits (p ++ q) := by
  intro c hc
  rcases List.mem_append.1 hc with h | h
  · exact hp c h
  · exact hq c h

/-! ### Addresses -/

theorem octet_mk (h : Digits 3 a) (hb : NoHead Dig b) : Can E ctx (.rule .Octet) pre a b := by
  obtain ⟨h1, h2, h3⟩ := h
  match a, h1, h2 with
  | [c], _, _ =>
    exact .rule (.seq (.cons (a1 := [c]) (a2 := []) (.digit (h3 c (by simp))) (.cons (a1 := []) (a2 := [])
      (.optNone (no_digit.2 hb)) (.one (.optNone (no_digit.2 hb))))))
  | [c, d], _, _ =>
    exact .rule (.seq (.cons (a1 := [c]) (.digit (h3 c (by simp))) (.cons (a1 := [d]) (a2 := [])
      (.opt (.digit (h3 d (by simp)))) (.one (.optNone (no_digit.2 hb))))))
  | [c, d, e], _, _ =>
    exact .rule (.seq (.cons (a1 := [c]) (.digit (h3 c (by simp))) (.cons (a1 := [d]) (a2 := [e])
      (.opt (.digit (h3 d (by simp)))) (.one (.opt (.digit (h3 e (by simp))))))))

theorem numeral_Digits3 {n : Nat} (h : n ≤ 255) : Digits 3 (numeral n) :=
  (digits_iff 3 _).2 ⟨numeral_ne_nil n, (numeral_length_le (by norm_num)).2 (by omega), numeral_digits n⟩

theorem numeral_Digits2 {n : Nat} (h : n ≤ 32) : Digits 2 (numeral n) :=
  (digits_iff 2 _).2 ⟨numeral_ne_nil n, (numeral_length_le (by norm_num)).2 (by omega), numeral_digits n⟩

theorem cidr_mk (h : Digits 2 a) (hb : NoHead Dig b) : Can E ctx (.rule .CIDRBlock) pre ('/' :: a) b := by
  obtain ⟨h1, h2, h3⟩ := h
  match a, h1, h2 with
  | [c], _, _ =>
    exact .rule (.seq (.cons (a1 := ['/']) (a2 := [c]) .lit1 (.cons (a1 := [c]) (a2 := [])
      (.digit (h3 c (by simp))) (.one (.optNone (no_digit.2 hb))))))
  | [c, d], _, _ =>
    exact .rule (.seq (.cons (a1 := ['/']) (a2 := [c, d]) .lit1 (.cons (a1 := [c]) (a2 := [d])
      (.digit (h3 c (by simp))) (.one (.opt (.digit (h3 d (by simp))))))))

/-- The expression of IPValue. -/
def ipExpr : PExpr := .seq [.rule .Octet, .lit ['.'] false "\".\"".toList, .rule .Octet,
  .lit ['.'] false "\".\"".toList, .rule .Octet, .lit ['.'] false "\".\"".toList, .rule .Octet,
  .opt (.rule .CIDRBlock)]

theorem ip_mk {x : Nat} {c : Str} (h : AddrText a x) (hc : Can E ctx (.opt (.rule .CIDRBlock)) (pre ++ a) c b)
    (hb : NoHead Dig (c ++ b)) : Can E ctx ipExpr pre (a ++ c) b := by
  obtain ⟨w, x, y, z, hw, hx, hy, hz, rfl, -⟩ := h
  have e : numeral w ++ '.' :: (numeral x ++ '.' :: (numeral y ++ '.' :: numeral z)) ++ c =
    numeral w ++ (['.'] ++ (numeral x ++ (['.'] ++ (numeral y ++ (['.'] ++ (numeral z ++ c)))))) := by simp
  rw [e]
  refine .seq (.cons (octet_mk (numeral_Digits3 hw) ?_) (.cons .lit1 (.cons (octet_mk (numeral_Digits3 hx) ?_)
    (.cons .lit1 (.cons (octet_mk (numeral_Digits3 hy) ?_) (.cons .lit1 (.cons
    (octet_mk (numeral_Digits3 hz) hb) (.one ?_))))))))
  · simp only [List.cons_append, noHead_cons]; decide
  · simp only [List.cons_append, noHead_cons]; decide
  · simp only [List.cons_append, noHead_cons]; decide
  · simpa using hc

theorem addr_head {x : Nat} (h : AddrText a x) : NoHead (· = '\n') (a ++ b) ∧ a ++ b ≠ [] := by
  obtain ⟨w, x, y, z, hw, hx, hy, hz, rfl, -⟩ := h
  rw [List.append_assoc]
  exact digits_head (fun c hc => (isDig_iff c).1 (numeral_digits w c hc)) (numeral_ne_nil w)

theorem address_ok {x : Nat} (h : AddrText a x) (hb : FLit b) : RuleOk E ctx .IPValue pre (a ++ b)
    (.val (.net (a ++ "/32".toList) ⟨x, 32⟩ (posAt pre a))) a b := by
  refine rule_action (e := ipExpr) rfl ?_ ?_
  · have := ip_mk (E := E) (ctx := ctx) (pre := pre) (b := b) (c := []) h (.optNone ?_) hb.noDig
    · simpa using this
    · rw [noR]
      unfold RuleNo
      simp only [grammar, no_seq, NoS, no_lit1]
      exact .inl (hb.noHead (by decide))
  · simp only [runAct, newNetVal]
    have hh := addr_head (b := []) h
    rw [List.append_nil] at hh
    have hp : parsePrefix (a ++ "/32".toList) = some ⟨x, 32⟩ :=
      (parsePrefix_iff _ ⟨x, 32⟩).2 ⟨a, h, by norm_num, by
        rw [show numeral 32 = ['3', '2'] by decide +kernel]; rfl⟩
    rw [if_neg h.noSlash, hp, getpos_head hh.1 hh.2]
    rfl

theorem block_ok {x n : Nat} {u : Str} (h : AddrText u x) (hn : n ≤ 32) (ha : a = u ++ '/' :: numeral n)
    (hb : FLit b) : RuleOk E ctx .IPValue pre (a ++ b) (.val (.net a ⟨x, n⟩ (posAt pre a))) a b := by
  subst ha
  refine rule_action (e := ipExpr) rfl ?_ ?_
  · refine ip_mk h (.opt (cidr_mk (numeral_Digits2 hn) hb.noDig)) ?_
    rw [List.cons_append, noHead_cons]; decide
  · simp only [runAct, newNetVal]
    have hh := addr_head (b := '/' :: numeral n) h
    rw [if_pos (by simp), (parsePrefix_iff _ ⟨x, n⟩).2 ⟨u, h, hn, rfl⟩, getpos_head hh.1 hh.2]
    rfl

/-- An address or block is a literal. -/
theorem ip_lit (h : RuleOk E ctx .IPValue pre s v a b) : ∃ x, v = .val x ∧ Lit E pre a x := by
  have hs := h.split
  subst hs
  unfold RuleOk at h
  simp only [grammar, ok_action] at h
  obtain ⟨_, _, -, hr⟩ := h
  obtain ⟨x, hx, rfl⟩ := tokResult_ok hr
  refine ⟨x, rfl, ?_⟩
  unfold newNetVal at hx
  dsimp only at hx
  by_cases hm : '/' ∈ a
  · rw [if_pos hm] at hx
    obtain ⟨p, hp, rfl⟩ := map_some hx
    obtain ⟨t, ht, hb, rfl⟩ := (parsePrefix_iff a p).1 hp
    rw [getpos_head (addr_head ht).1 (addr_head ht).2]
    exact .block ht hb rfl
  · rw [if_neg hm] at hx
    obtain ⟨p, hp, rfl⟩ := map_some hx
    obtain ⟨t, ht, hb, he⟩ := (parsePrefix_iff _ p).1 hp
    have key : ∀ (a t u w : Str), '/' ∉ a → '/' ∉ t → a ++ '/' :: u = t ++ '/' :: w → a = t ∧ u = w := by
      intro a
      induction a with
      | nil =>
        intro t u w _ ht h
        cases t with
        | nil => cases h; exact ⟨rfl, rfl⟩
        | cons c t => cases h; simp at ht
      | cons c a ih =>
        intro t u w ha ht h
        cases t with
        | nil => cases h; simp at ha
        | cons d t =>
          injection h with h1 h2
          subst h1
          obtain ⟨h3, h4⟩ := ih t u w (fun h => ha (by simp [h])) (fun h => ht (by simp [h])) h2
          exact ⟨by rw [h3], h4⟩
    obtain ⟨rfl, h2⟩ := key a t ['3', '2'] _ hm ht.noSlash he
    have h32 : p.bits = 32 := numeral_inj (h2.symm.trans (by decide +kernel))
    have hh := addr_head (b := []) ht
    rw [List.append_nil] at hh
    rw [getpos_head hh.1 hh.2]
    have hp2 : p = ⟨p.addr, 32⟩ := by rw [← h32]
    have := Lit.address (E := E) (pre := pre) ht
    rw [← hp2] at this
    exact this

/-- An octet takes at most three digits. -/
theorem octet_or {ds t : Str} (h1 : AllDigits ds) (h2 : ds ≠ []) (h3 : NoHead Dig t) :
    ∃ p q, ds = p ++ q ∧ Can E ctx (.rule .Octet) pre p (q ++ t) := by
  match ds, h2 with
  | [c], _ =>
    exact ⟨[c], [], rfl, octet_mk ⟨by simp, by simp, h1⟩ h3⟩
  | [c, d], _ =>
    exact ⟨[c, d], [], rfl, octet_mk ⟨by simp, by simp, h1⟩ h3⟩
  | c :: d :: e :: ds, _ =>
    exact ⟨[c, d, e], ds, rfl, .rule (.seq (.cons (a1 := [c]) (.digit (h1 c (by simp))) (.cons (a1 := [d])
      (a2 := [e]) (.opt (.digit (h1 d (by simp)))) (.one (.opt (.digit (h1 e (by simp))))))))⟩

theorem octet_no (h : NoHead Dig s) : RuleNo E ctx .Octet pre s := by
  unfold RuleNo
  simp only [grammar, no_seq, NoS, no_digit]
  exact .inl h

/-- Digits not followed by a point are no address. -/
theorem ip_no_int {ds t : Str} (h1 : AllDigits ds) (h3 : NoHead Dig t) (h4 : NoHead (· = '.') t) :
    RuleNo E ctx .IPValue pre (ds ++ t) := by
  unfold RuleNo
  simp only [grammar, no_action, no_seq, NoS, no_lit1]
  by_cases hd : ds = []
  · subst hd; exact .inl (noR.2 (octet_no h3))
  · obtain ⟨p, q, rfl, hc⟩ := octet_or (E := E) (ctx := ctx) (pre := pre) h1 hd h3
    obtain ⟨v, hc⟩ := hc []
    rw [← List.append_assoc] at hc
    refine .inr ⟨_, _, _, _, hc, .inl ?_⟩
    cases q with
    | nil => exact h4
    | cons c q =>
      rw [List.cons_append, noHead_cons]
      exact dig_ne (h1 c (by simp)) (by decide)

/-- One decimal point does not make an address. -/
theorem ip_no_float {ds es t : Str} (h1 : AllDigits ds) (h2 : AllDigits es) (h3 : NoHead Dig t)
    (h4 : NoHead (· = '.') t) : RuleNo E ctx .IPValue pre (ds ++ '.' :: (es ++ t)) := by
  unfold RuleNo
  simp only [grammar, no_action, no_seq, NoS, no_lit1]
  by_cases hd : ds = []
  · subst hd; exact .inl (noR.2 (octet_no (by rw [List.nil_append, noHead_cons]; decide)))
  · obtain ⟨p, q, rfl, hc⟩ := octet_or (E := E) (ctx := ctx) (pre := pre) (t := '.' :: (es ++ t)) h1 hd
      (by rw [noHead_cons]; decide)
    obtain ⟨v, hc⟩ := hc []
    rw [← List.append_assoc] at hc
    refine .inr ⟨_, _, _, _, hc, ?_⟩
    cases q with
    | cons c q =>
      refine .inl ?_
      rw [List.cons_append, noHead_cons]
      exact dig_ne (h1 c (by simp)) (by decide)
    | nil =>
      refine .inr ⟨_, _, _, _, ok_lit1.2 ⟨rfl, rfl, rfl, rfl⟩, ?_⟩
      by_cases he : es = []
      · subst he; exact .inl (noR.2 (octet_no h3))
      · obtain ⟨p', q', rfl, hc'⟩ := octet_or (E := E) (ctx := ctx) (pre := pre ++ p ++ ['.']) h2 he h3
        obtain ⟨v', hc'⟩ := hc' []
        rw [← List.append_assoc] at hc'
        refine .inr ⟨_, _, _, _, hc', .inl ?_⟩
        cases q' with
        | nil => exact h4
        | cons c q =>
          rw [List.cons_append, noHead_cons]
          exact dig_ne (h2 c (by simp)) (by decide)

/-! ### Numbers -/

theorem minus_mk {m : Str} (h : Minus m) (ha : NoHead (· = '-') a) {w : Str} :
    Can E ctx (.opt (.lit ['-'] false w)) pre m a := by
  rcases h with rfl | rfl
  · exact .optNone (no_lit1.2 ha)
  · exact .opt .lit1

theorem digits_noHead {p t : Str} (h : AllDigits p) (hp : p ≠ []) {q : Char → Prop} (hq : ∀ c, Dig c → ¬ q c) :
    NoHead q (p ++ t) := by
  cases p with
  | nil => exact absurd rfl hp
  | cons c p => rw [List.cons_append, noHead_cons]; exact hq c (h c (by simp))

theorem number_head {m p t : Str} (hm : Minus m) (h : AllDigits p) (hp : p ≠ []) {q : Char → Prop}
    (hq : ∀ c, Dig c ∨ c = '-' → ¬ q c) : NoHead q (m ++ (p ++ t)) := by
  rcases hm with rfl | rfl
  · exact digits_noHead h hp fun c hc => hq c (.inl hc)
  · rw [List.singleton_append, noHead_cons]; exact hq _ (.inr rfl)

/-- The sign of a zero. -/
theorem isNegZero_lit {m p t : Str} {x : ℚ} (hm : Minus m) (h : AllDigits p) (hp : p ≠ []) :
    isNegZero (m ++ (p ++ t)) (.fin x) = decide (x = 0 ∧ m = ['-']) := by
  unfold isNegZero
  rcases hm with rfl | rfl
  · cases p with
    | nil => exact absurd rfl hp
    | cons c p =>
      have : c ≠ '-' := fun e => by subst e; exact absurd (h '-' (by simp)) (by decide)
      simp [this]
  · by_cases hx : x = 0 <;> simp [hx]

theorem float_ok {m p q : Str} {r : ℚ} {x : ℚ} (hm : Minus m) (hp : p ≠ []) (hp2 : AllDigits p) (hq : q ≠ [])
    (hq2 : AllDigits q) (ha : a = m ++ (p ++ '.' :: q)) (hd : DecText a r) (hx : toF64 r = .fin x) (hb : FLit b) :
    RuleOk E ctx .FloatValue pre (a ++ b) (.val (.float (.fin x) (decide (x = 0 ∧ m = ['-'])) (posAt pre a))) a b := by
  refine rule_action rfl ?_ ?_
  · rw [ha]
    refine .seq (.cons (minus_mk hm ?_) (.cons (.digits hp hp2 ?_) (.cons (a1 := ['.']) .lit1
      (.one (.digits hq hq2 hb.noDig)))))
    · rw [List.append_assoc]
      exact digits_noHead hp2 hp fun c hc h => dig_ne hc (by decide) h
    · rw [List.cons_append, noHead_cons]; decide
  · have hh : NoHead (· = '\n') a := by
      rw [ha]
      exact number_head hm hp2 hp fun c hc h => by subst h; revert hc; decide
    have hne : a ≠ [] := by rw [ha]; simp
    simp only [runAct]
    rw [getpos_head hh hne]
    unfold newFloatVal parseFloat
    rw [(decimalValue_iff a r).2 hd]
    simp only [hx]
    rw [ha, isNegZero_lit hm hp2 hp]
    rfl

theorem decText_float {m p q : Str} (hm : Minus m) (hp : p ≠ []) (hp2 : AllDigits p) (hq2 : AllDigits q) :
    ∃ r, DecText (m ++ (p ++ '.' :: q)) r := by
  have hs : ∃ neg, SignText m neg := by
    rcases hm with rfl | rfl
    · exact ⟨_, .none⟩
    · exact ⟨_, .minus⟩
  obtain ⟨neg, hs⟩ := hs
  exact ⟨_, m, neg, p, '.' :: q, q, [], 0, hs, hp2, .point hq2, .inl hp, .none, by simp, rfl⟩

/-- A number with a decimal point is a literal. -/
theorem float_lit (h : RuleOk E ctx .FloatValue pre s v a b) : ∃ x, v = .val x ∧ Lit E pre a x := by
  have hs := h.split
  unfold RuleOk at h
  simp only [grammar, ok_action, ok_seq, OkS] at h
  obtain ⟨_, _, ⟨_, m, _, _, h1, _, rfl, _, p, _, _, h2, _, rfl, _, _, _, _, h3, _, rfl, _, q, _, _, h4, _, rfl, rfl, rfl, rfl,
    rfl⟩, hr⟩ := h
  have hm : Minus m := by
    rw [ok_opt] at h1
    rcases h1.2 with ⟨_, h⟩ | h
    · rw [ok_lit1] at h; exact .inr h.2.1
    · exact .inl h.2.2.1
  obtain ⟨-, -, hp, hp2, -⟩ := plus_digits h2
  obtain ⟨-, -, hq, hq2, -⟩ := plus_digits h4
  obtain ⟨-, rfl, -, -⟩ := ok_lit1.1 h3
  clear h1 h2 h3 h4
  have ha : m ++ (p ++ (['.'] ++ (q ++ []))) = m ++ (p ++ '.' :: q) := by simp
  rw [ha] at hr hs ⊢
  subst hs
  obtain ⟨y, hy, rfl⟩ := tokResult_ok hr
  refine ⟨y, rfl, ?_⟩
  have hh : NoHead (· = '\n') (m ++ (p ++ '.' :: q)) :=
    number_head hm hp2 hp fun c hc h => by subst h; revert hc; decide
  rw [getpos_head hh (by simp)] at hy
  obtain ⟨r, hd⟩ := decText_float hm hp hp2 hq2
  unfold newFloatVal parseFloat at hy
  rw [(decimalValue_iff _ r).2 hd] at hy
  cases hf : toF64 r with
  | fin x =>
    simp only [hf] at hy
    rw [isNegZero_lit hm hp2 hp] at hy
    cases hy
    exact .float hm hp hp2 hq hq2 rfl hd hf
  | _ => simp [hf] at hy

theorem int_ok {m p : Str} {n : Int} (hm : Minus m) (hp : p ≠ []) (hp2 : AllDigits p) (ha : a = m ++ p)
    (hd : IntText a n) (h1 : -(2 ^ 63 : Int) ≤ n) (h2 : n < 2 ^ 63) (hb : FLit b) :
    RuleOk E ctx .IntValue pre (a ++ b) (.val (.int n a (posAt pre a))) a b := by
  refine rule_action rfl ?_ ?_
  · rw [ha]
    refine .seq (.cons (minus_mk hm ?_) (.one (.digits hp hp2 hb.noDig)))
    exact digits_noHead hp2 hp fun c hc h => dig_ne hc (by decide) h
  · have hh : NoHead (· = '\n') a := by
      rw [ha]
      have := number_head (t := []) hm hp2 hp (q := (· = '\n')) fun c hc h => by subst h; revert hc; decide
      simpa using this
    have hne : a ≠ [] := by rw [ha]; simp [hp]
    simp only [runAct]
    rw [getpos_head hh hne]
    unfold newIntVal
    rw [(parseInt64_iff a n).2 ⟨hd, h1, h2⟩]
    rfl

/-- An integer is a literal. -/
theorem int_lit (h : RuleOk E ctx .IntValue pre s v a b) : ∃ x, v = .val x ∧ Lit E pre a x := by
  have hs := h.split
  unfold RuleOk at h
  simp only [grammar, ok_action, ok_seq, OkS] at h
  obtain ⟨_, _, ⟨_, m, _, _, h1, _, rfl, _, p, _, _, h2, _, rfl, rfl, rfl, rfl, rfl⟩, hr⟩ := h
  have hm : Minus m := by
    rw [ok_opt] at h1
    rcases h1.2 with ⟨_, h⟩ | h
    · rw [ok_lit1] at h; exact .inr h.2.1
    · exact .inl h.2.2.1
  obtain ⟨-, -, hp, hp2, -⟩ := plus_digits h2
  clear h1 h2
  rw [List.append_nil] at hr hs ⊢
  subst hs
  have hh : NoHead (· = '\n') (m ++ p) := by
    have := number_head (t := []) hm hp2 hp (q := (· = '\n')) fun c hc h => by subst h; revert hc; decide
    simpa using this
  simp only [runAct] at hr
  rw [getpos_head hh (by simp [hp])] at hr
  unfold newIntVal at hr
  rcases hn : parseInt64 (m ++ p) with _ | n
  · rw [hn] at hr; simp at hr
  · rw [hn] at hr
    simp only [Option.map_some, Except.ok.injEq, Prod.mk.injEq, and_true] at hr
    obtain ⟨h3, h4, h5⟩ := (parseInt64_iff _ n).1 hn
    exact ⟨_, hr.symm, .int hm hp hp2 rfl h3 h4 h5⟩

/-- The rule for numbers with a point does not match an integer. -/
theorem float_no_int {m p : Str} (hm : Minus m) (hp : p ≠ []) (hp2 : AllDigits p) (hb : NoHead Dig b)
    (hb2 : NoHead (· = '.') b) : RuleNo E ctx .FloatValue pre (m ++ (p ++ b)) := by
  unfold RuleNo
  simp only [grammar, no_action, no_seq, NoS, no_lit1]
  obtain ⟨v, h1⟩ := minus_mk (E := E) (ctx := ctx) (pre := pre) (a := p ++ b) hm
    (digits_noHead hp2 hp fun c hc h => dig_ne hc (by decide) h) (w := "\"-\"".toList) []
  obtain ⟨v2, h2⟩ := Can.digits (E := E) (ctx := ctx) (pre := pre ++ m) hp hp2 hb []
  exact .inr ⟨_, _, _, _, h1, .inr ⟨_, _, _, _, h2, .inl hb2⟩⟩

theorem int_no (h1 : NoHead Dig s) (h2 : NoHead (· = '-') s) : RuleNo E ctx .IntValue pre s := by
  unfold RuleNo
  simp only [grammar, no_action, no_seq, NoS, no_digits]
  exact .inr ⟨_, _, _, _, ok_opt.2 ⟨rfl, .inr ⟨no_lit1.2 h2, rfl, rfl, rfl⟩⟩, .inl h1⟩

theorem float_no (h1 : NoHead Dig s) (h2 : NoHead (· = '-') s) : RuleNo E ctx .FloatValue pre s := by
  unfold RuleNo
  simp only [grammar, no_action, no_seq, NoS, no_digits]
  exact .inr ⟨_, _, _, _, ok_opt.2 ⟨rfl, .inr ⟨no_lit1.2 h2, rfl, rfl, rfl⟩⟩, .inl h1⟩

/-! ### Booleans -/

theorem true_ok : RuleOk E ctx .BoolValue pre ("true".toList ++ b)
    (.val (.bool true (posAt pre "true".toList))) "true".toList b := by
  refine rule_action rfl (.right ?_ (.left .lit)) ?_
  · exact no_lit_head (by intro c t h; cases h; decide)
  · simp only [runAct]
    rw [getpos_head (by intro c t h; cases h; decide) (by decide)]
    rfl

theorem false_ok : RuleOk E ctx .BoolValue pre ("false".toList ++ b)
    (.val (.bool false (posAt pre "false".toList))) "false".toList b := by
  refine rule_action rfl (.left .lit) ?_
  simp only [runAct]
  rw [getpos_head (by intro c t h; cases h; decide) (by decide)]
  rfl

theorem bool_lit (h : RuleOk E ctx .BoolValue pre s v a b) : ∃ x, v = .val x ∧ Lit E pre a x := by
  unfold RuleOk at h
  simp only [grammar, ok_action, ok_choice, OkC, ok_lit] at h
  obtain ⟨_, _, ⟨rfl, ⟨_, rfl, rfl, rfl, rfl⟩ | ⟨-, ⟨_, rfl, rfl, rfl, rfl⟩ | h⟩⟩, hr⟩ := h
  · simp only [runAct] at hr
    rw [getpos_head (by intro c t h; cases h; decide) (by decide)] at hr
    simp +decide [newBoolVal, parseBoolLower] at hr
    exact ⟨_, hr.symm, .false_⟩
  · simp only [runAct] at hr
    rw [getpos_head (by intro c t h; cases h; decide) (by decide)] at hr
    simp +decide [newBoolVal, parseBoolLower] at hr
    exact ⟨_, hr.symm, .true_⟩
  · exact h.2.elim

end Aql
