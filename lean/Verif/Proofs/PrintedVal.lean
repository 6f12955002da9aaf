import Verif.Spec.Printed
import Verif.Proofs.FormatText
import Verif.Proofs.Literals
import Verif.Props.Fields
/-!
Printed values can be told from what follows, and from each other.
-/

namespace Aql

open Spec

variable {E : Env}

/-- The printed forms of literals. -/
inductive Kind (E : Env) : Val → Prop
  | str {x p} : Kind E (.str x p)
  | regex {b src p} : (∀ a c d, b = a ++ '/' :: c :: d → c ≠ ')' ∧ c ≠ ',' ∧ c ≠ ']') → trimSlash ('/' :: (b ++ ['/'])) = src → Kind E (.regex ('/' :: (b ++ ['/'])) src p)
  | number {v m a r q} : Minus m → a ≠ [] → AllDigits a → (r = [] ∨ ∃ b, AllDigits b ∧ r = '.' :: b) →
      v.toStr E = m ++ (a ++ r) → DecText (v.toStr E) q → StandsFor v (toF64 q) → Kind E v
  | day {t i p} : DayText t i → Kind E (.time t i true p)
  | stamp {t i p} : StampText t i → Kind E (.time t i false p)
  | net {u a k p} : AddrText u a → Kind E (.net (u ++ '/' :: numeral k) ⟨a, k⟩ p)
  | bool {b p} : Kind E (.bool b p)

theorem decText_int {t : Str} {n : Int} (h : IntText t n) : DecText t (n : ℚ) := by
  obtain ⟨sg, neg, ds, h1, h2, h3, h4, h5⟩ := h
  refine ⟨sg, neg, ds, [], [], [], 0, h1, h3, .none, .inl h2, .none, by simpa using h4, ?_⟩
  rw [h5]
  cases neg <;> simp [digitsValue]

theorem unescapeSlash_last : ∀ s : Str, ∃ b, unescapeSlash (s ++ ['/']) = b ++ ['/']
  | [] => ⟨[], rfl⟩
  | [c] => by
    by_cases h : c = '\\'
    · subst h; exact ⟨[], rfl⟩
    · exact ⟨[c], by simp [unescapeSlash, h]⟩
  | c :: d :: s => by
    obtain ⟨b, hb⟩ := unescapeSlash_last s
    obtain ⟨b', hb'⟩ := unescapeSlash_last (d :: s)
    by_cases h : c = '\\' ∧ d = '/'
    · obtain ⟨rfl, rfl⟩ := h
      exact ⟨'/' :: b, by simp [unescapeSlash, hb]⟩
    · refine ⟨c :: b', ?_⟩
      rw [List.cons_append, unescapeSlash, hb']
      · rfl
      · rintro t rfl ht
        injection ht with h1 h2
        exact h ⟨rfl, h1⟩

theorem unescaped_ends {s u : Str} (h : Unescaped ('/' :: (s ++ ['/'])) u) : ∃ b, u = '/' :: (b ++ ['/']) := by
  cases h with
  | other _ h2 =>
    obtain ⟨b, hb⟩ := unescapeSlash_last s
    rw [unescaped_iff] at h2
    exact ⟨b, by rw [← h2, ← hb]⟩

theorem lit_kind {pre t : Str} {v : Val} (h : Lit E pre t v) (hl : LegibleVal v) : Kind E v := by
  cases h with
  | string => exact .str
  | regex h1 h2 h3 h4 h5 =>
    subst h2
    obtain ⟨b, rfl⟩ := unescaped_ends h3
    refine .regex ?_ (trimmed_iff.1 h4)
    rintro a c d rfl
    exact hl ('/' :: a) c (d ++ ['/']) (by simp) (by simp)
  | stamp h => exact .stamp h
  | day h => exact .day h
  | address h => exact .net (k := 32) h
  | block h _ e => subst e; exact .net h
  | float h1 h2 h3 h4 h5 h6 h7 h8 =>
    obtain ⟨m, a, r, q, k1, k2, k3, k4, k5, k6, k7, -⟩ := formatFloat_reads _ (toF64_isDouble h8)
    exact .number k1 k2 k3 (k4.imp_right fun ⟨b, _, hb, e⟩ => ⟨b, hb, e⟩) k5 k6 (by rw [k7]; exact .float)
  | int h1 h2 h3 h4 h5 h6 h7 =>
    exact .number (r := []) h1 h2 h3 (.inl rfl) (by rw [List.append_nil]; exact h4) (decText_int h5) .int
  | true_ => exact .bool
  | false_ => exact .bool

/-- What follows a printed value. -/
def AfterVal (x : Str) : Prop := ∃ c r, x = c :: r ∧ (c = ')' ∨ c = ',' ∨ c = ']')

/-- Characters of the values that are printed without delimiters. -/
def Bare (c : Char) : Prop := c ≠ ')' ∧ c ≠ ',' ∧ c ≠ ']'

instance (c : Char) : Decidable (Bare c) := by unfold Bare; infer_instance

theorem AfterVal.noBare {x : Str} (h : AfterVal x) : NoHead Bare x := by
  obtain ⟨c, r, rfl, h⟩ := h
  rw [noHead_cons]
  rcases h with rfl | rfl | rfl <;> decide

theorem dig_bare {c : Char} (h : Dig c) : Bare c := by
  refine ⟨?_, ?_, ?_⟩ <;> (rintro rfl; revert h; decide)

/-- Values printed without delimiters. -/
def Undelimited : Val → Prop
  | .str .. => False
  | .regex .. => False
  | _ => True

theorem day_parts {t : Str} {i : Int} (h : DayText t i) : ∃ c u, t = c :: u ∧ Dig c ∧ '-' ∈ u ∧ '/' ∉ t ∧ ∀ c ∈ t, Bare c := by
  obtain ⟨x, ⟨a, b, c, ha, ha4, hb, -, hc, -, rfl, -⟩, -⟩ := h
  obtain ⟨d, a, rfl⟩ := List.exists_cons_of_ne_nil (show a ≠ [] by rintro rfl; cases ha4)
  refine ⟨d, _, rfl, ha d (by simp), by simp, ?_, ?_⟩
  · intro hm
    simp only [List.mem_append, List.mem_cons] at hm
    rcases hm with (hm | hm) | hm | hm | hm | hm
    · exact absurd (ha '/' (by rw [hm]; simp)) (by decide)
    · exact absurd (ha '/' (by simp [hm])) (by decide)
    · cases hm
    · exact absurd (hb _ hm) (by decide)
    · cases hm
    · exact absurd (hc _ hm) (by decide)
  · intro e hm
    simp only [List.mem_append, List.mem_cons] at hm
    rcases hm with (rfl | hm) | rfl | hm | rfl | hm
    · exact dig_bare (ha _ (by simp))
    · exact dig_bare (ha _ (by simp [hm]))
    · decide
    · exact dig_bare (hb _ hm)
    · decide
    · exact dig_bare (hc _ hm)

theorem stamp_parts {t : Str} {i : Int} (h : StampText t i) : ∃ c u, t = c :: u ∧ Dig c ∧ '-' ∈ u ∧ '/' ∉ t ∧ ∀ c ∈ t, Bare c := by
  obtain ⟨dt, x, n, ct, secs, ft, ns, zt, off, hd, hv, hn, hc, hf, hz, rfl, -⟩ := h
  obtain ⟨c, u, rfl, h1, h2, h3, h4⟩ := day_parts ⟨x, hd, hv, n, hn, rfl⟩
  have all : ∀ e ∈ ct ++ (ft ++ zt), Dig e ∨ e = ':' ∨ e = '.' ∨ e = 'Z' ∨ e = '+' ∨ e = '-' := by
    intro e he
    simp only [List.mem_append] at he
    rcases he with he | he | he
    · obtain ⟨h, m, s, k1, -, k2, -, k3, -, rfl, -⟩ := hc
      simp only [List.mem_append, List.mem_cons] at he
      rcases he with he | rfl | he | rfl | he
      · exact .inl (k1 _ he)
      · simp
      · exact .inl (k2 _ he)
      · simp
      · exact .inl (k3 _ he)
    · cases hf with
      | none => cases he
      | frac k1 k2 =>
        rcases List.mem_cons.1 he with rfl | he
        · simp
        · exact .inl (k2 _ he)
    · cases hz with
      | utc => simp at he; simp [he]
      | offset k1 _ k2 _ _ _ hs =>
        simp only [List.mem_append, List.mem_cons] at he
        rcases he with rfl | he | rfl | he
        · rcases hs with rfl | rfl <;> simp
        · exact .inl (k1 _ he)
        · simp
        · exact .inl (k2 _ he)
  refine ⟨c, u ++ 'T' :: (ct ++ (ft ++ zt)), rfl, h1, by simp [h2], ?_, ?_⟩ <;>
    rw [show c :: u ++ 'T' :: (ct ++ (ft ++ zt)) = (c :: u) ++ 'T' :: (ct ++ (ft ++ zt)) from rfl]
  · intro hm
    generalize ct ++ (ft ++ zt) = z at *
    rw [List.mem_append, List.mem_cons (b := 'T')] at hm
    rcases hm with hm | hm | hm
    · exact h3 hm
    · cases hm
    · exact absurd (all _ hm) (by decide)
  · intro e hm
    generalize ct ++ (ft ++ zt) = z at *
    rw [List.mem_append, List.mem_cons (b := 'T')] at hm
    rcases hm with hm | rfl | hm
    · exact h4 _ hm
    · decide
    · rcases all _ hm with h | rfl | rfl | rfl | rfl | rfl
      · exact dig_bare h
      all_goals decide

theorem addr_parts {t : Str} {a : Nat} (h : AddrText t a) : '/' ∉ t ∧ (∀ c ∈ t, Dig c ∨ c = '.') := by
  obtain ⟨w, x, y, z, -, -, -, -, rfl, -⟩ := h
  have : ∀ c ∈ numeral w ++ '.' :: (numeral x ++ '.' :: (numeral y ++ '.' :: numeral z)), Dig c ∨ c = '.' := by
    intro c hc
    simp only [List.mem_append, List.mem_cons] at hc
    rcases hc with h | rfl | h | rfl | h | rfl | h
    · exact .inl (numeral_dig h)
    · exact .inr rfl
    · exact .inl (numeral_dig h)
    · exact .inr rfl
    · exact .inl (numeral_dig h)
    · exact .inr rfl
    · exact .inl (numeral_dig h)
  exact ⟨fun hm => absurd (this _ hm) (by decide), this⟩

theorem number_parts {m a r : Str} (hm : Minus m) (ha : a ≠ []) (hd : AllDigits a)
    (hr : r = [] ∨ ∃ b, AllDigits b ∧ r = '.' :: b) :
    (∃ c u, m ++ (a ++ r) = c :: u ∧ (Dig c ∨ c = '-') ∧ '-' ∉ u) ∧ ∀ c ∈ m ++ (a ++ r), Dig c ∨ c = '-' ∨ c = '.' := by
  have h1 : ∀ c ∈ a ++ r, Dig c ∨ c = '.' := by
    intro c hc
    rcases List.mem_append.1 hc with h | h
    · exact .inl (hd _ h)
    rcases hr with rfl | ⟨b, hb, rfl⟩
    · cases h
    rcases List.mem_cons.1 h with rfl | h
    · exact .inr rfl
    · exact .inl (hb _ h)
  have h2 : '-' ∉ a ++ r := fun hm => absurd (h1 _ hm) (by decide)
  rcases hm with rfl | rfl
  · obtain ⟨d, a, rfl⟩ := List.exists_cons_of_ne_nil ha
    refine ⟨⟨d, a ++ r, rfl, .inl (hd d (by simp)), fun h => h2 (by simp at h; simp [h])⟩, ?_⟩
    intro c hc
    rcases h1 c hc with h | h
    · exact .inl h
    · exact .inr (.inr h)
  · refine ⟨⟨'-', a ++ r, rfl, .inr rfl, h2⟩, ?_⟩
    intro c hc
    rcases List.mem_cons.1 hc with h | hc
    · exact .inr (.inl h)
    rcases h1 c hc with h | h
    · exact .inl h
    · exact .inr (.inr h)

/-- First characters of printed values. -/
def BeginsAs (c : Char) (u : Str) : Val → Prop
  | .str .. => c = '"'
  | .regex .. => c = '/'
  | _ => (Dig c ∨ c = '-' ∨ c = 't' ∨ c = 'f') ∧ ∀ d ∈ c :: u, Bare d

theorem kind_cons {v : Val} (h : Kind E v) : ∃ c u, v.toStr E = c :: u ∧ BeginsAs c u v := by
  cases h with
  | str => exact ⟨'"', _, rfl, rfl⟩
  | regex => exact ⟨'/', _, rfl, rfl⟩
  | number h1 h2 h3 h4 h5 h6 h7 =>
    obtain ⟨⟨c, u, k1, k2, -⟩, k3⟩ := number_parts h1 h2 h3 h4
    have k4 : ∀ d ∈ c :: u, Bare d := by
      intro d hd
      rw [← k1] at hd
      rcases k3 d hd with h | rfl | rfl
      · exact dig_bare h
      · decide
      · decide
    refine ⟨c, u, h5.trans k1, ?_⟩
    generalize toF64 _ = f at h7
    cases h7 <;> exact ⟨k2.imp_right .inl, k4⟩
  | day h => obtain ⟨c, u, rfl, h1, -, -, h2⟩ := day_parts h; exact ⟨c, u, rfl, .inl h1, h2⟩
  | stamp h => obtain ⟨c, u, rfl, h1, -, -, h2⟩ := stamp_parts h; exact ⟨c, u, rfl, .inl h1, h2⟩
  | @net u a k p h =>
    obtain ⟨c, t, h1, h2⟩ := addr_cons h ('/' :: numeral k)
    refine ⟨c, t, h1, .inl h2, ?_⟩
    intro d hd
    rw [← h1, List.mem_append, List.mem_cons] at hd
    rcases hd with hd | rfl | hd
    · rcases (addr_parts h).2 d hd with h | rfl
      · exact dig_bare h
      · decide
    · decide
    · exact dig_bare (numeral_dig hd)
  | @bool b p =>
    cases b
    · exact ⟨'f', _, rfl, by decide, by decide⟩
    · exact ⟨'t', _, rfl, by decide, by decide⟩

/-- Undelimited values with the same text are the same. -/
theorem kind_same {v w : Val} (hv : Kind E v) (hw : Kind E w) (uv : Undelimited v) (uw : Undelimited w)
    (h : v.toStr E = w.toStr E) : SameValue v w := by
  have numTime : ∀ {v : Val} {m a r t : Str}, Minus m → a ≠ [] → AllDigits a → (r = [] ∨ ∃ b, AllDigits b ∧ r = '.' :: b) →
      (∃ c u, t = c :: u ∧ Dig c ∧ '-' ∈ u ∧ '/' ∉ t ∧ ∀ c ∈ t, Bare c) → m ++ (a ++ r) ≠ t := by
    rintro v m a r t h1 h2 h3 h4 ⟨c, u, rfl, -, k, -⟩ h
    obtain ⟨⟨c', u', e, -, k'⟩, -⟩ := number_parts h1 h2 h3 h4
    rw [e] at h; cases h; exact k' k
  have numNet : ∀ {m a r u : Str} {k : Nat}, Minus m → a ≠ [] → AllDigits a → (r = [] ∨ ∃ b, AllDigits b ∧ r = '.' :: b) →
      m ++ (a ++ r) ≠ u ++ '/' :: numeral k := by
    intro m a r u k h1 h2 h3 h4 h
    exact absurd ((number_parts h1 h2 h3 h4).2 '/' (by rw [h]; simp)) (by decide)
  have numBool : ∀ {m a r : Str} {b : Bool} {p : Pos}, Minus m → a ≠ [] → AllDigits a → (r = [] ∨ ∃ b, AllDigits b ∧ r = '.' :: b) →
      m ++ (a ++ r) ≠ (Val.bool b p).toStr E := by
    intro m a r b p h1 h2 h3 h4 h
    have := (number_parts h1 h2 h3 h4).2
    rw [h] at this
    cases b
    · exact absurd (this 'f' (by simp [Val.toStr])) (by decide)
    · exact absurd (this 't' (by simp [Val.toStr])) (by decide)
  have timeNet : ∀ {t u : Str} {k : Nat}, (∃ c u, t = c :: u ∧ Dig c ∧ '-' ∈ u ∧ '/' ∉ t ∧ ∀ c ∈ t, Bare c) →
      t ≠ u ++ '/' :: numeral k := by
    rintro t u k ⟨_, _, -, -, -, h, -⟩ e
    exact h (by rw [e]; simp)
  have timeBool : ∀ {t : Str} {b : Bool} {p : Pos}, (∃ c u, t = c :: u ∧ Dig c ∧ '-' ∈ u ∧ '/' ∉ t ∧ ∀ c ∈ t, Bare c) →
      t ≠ (Val.bool b p).toStr E := by
    rintro t b p ⟨c, u, rfl, h, -⟩ e
    cases b
    · injection e with e _; subst e; revert h; decide
    · injection e with e _; subst e; revert h; decide
  have netBool : ∀ {u : Str} {k : Nat} {b : Bool} {p : Pos}, u ++ '/' :: numeral k ≠ (Val.bool b p).toStr E := by
    intro u k b p e
    have : '/' ∈ (Val.bool b p).toStr E := by rw [← e]; simp
    cases b
    · exact absurd this (by simp [Val.toStr])
    · exact absurd this (by simp [Val.toStr])
  cases hv with
  | str => exact uv.elim
  | regex => exact uv.elim
  | number h1 h2 h3 h4 h5 h6 h7 =>
    cases hw with
    | str => exact uw.elim
    | regex => exact uw.elim
    | number k1 k2 k3 k4 k5 k6 k7 =>
      rw [h] at h6
      have := ((decimalValue_iff _ _).2 h6).symm.trans ((decimalValue_iff _ _).2 k6)
      injection this with this
      subst this
      exact .number h7 k7
    | day k => exact absurd (h5.symm.trans h) (numTime (v := v) h1 h2 h3 h4 (day_parts k))
    | stamp k => exact absurd (h5.symm.trans h) (numTime (v := v) h1 h2 h3 h4 (stamp_parts k))
    | net k => exact absurd (h5.symm.trans h) (numNet h1 h2 h3 h4)
    | bool => exact absurd (h5.symm.trans h) (numBool h1 h2 h3 h4)
  | @day t i p k =>
    cases hw with
    | str => exact uw.elim
    | regex => exact uw.elim
    | number h1 h2 h3 h4 h5 h6 h7 => exact absurd (h5.symm.trans h.symm) (numTime (v := .time t i true p) h1 h2 h3 h4 (day_parts k))
    | @day t' i' p' k' =>
      obtain rfl : t = t' := h
      have := ((parseDay_iff _ _).2 k).symm.trans ((parseDay_iff _ _).2 k')
      injection this with this
      subst this
      exact .time
    | @stamp t' i' p' k' =>
      obtain rfl : t = t' := h
      exact absurd (day_len k) (stamp_len k')
    | net => exact absurd h (timeNet (day_parts k))
    | bool => exact absurd h (timeBool (day_parts k))
  | @stamp t i p k =>
    cases hw with
    | str => exact uw.elim
    | regex => exact uw.elim
    | number h1 h2 h3 h4 h5 h6 h7 => exact absurd (h5.symm.trans h.symm) (numTime (v := .time t i true p) h1 h2 h3 h4 (stamp_parts k))
    | @day t' i' p' k' =>
      obtain rfl : t = t' := h
      exact absurd (day_len k') (stamp_len k)
    | @stamp t' i' p' k' =>
      obtain rfl : t = t' := h
      have := ((parseRFC3339_iff _ _).2 k).symm.trans ((parseRFC3339_iff _ _).2 k')
      injection this with this
      subst this
      exact .time
    | net => exact absurd h (timeNet (stamp_parts k))
    | bool => exact absurd h (timeBool (stamp_parts k))
  | @net u a n p k =>
    cases hw with
    | str => exact uw.elim
    | regex => exact uw.elim
    | number h1 h2 h3 h4 h5 h6 h7 => exact absurd (h5.symm.trans h.symm) (numNet h1 h2 h3 h4)
    | day k' => exact absurd h.symm (timeNet (day_parts k'))
    | stamp k' => exact absurd h.symm (timeNet (stamp_parts k'))
    | @net u' a' n' p' k' =>
      replace h : u ++ '/' :: numeral n = u' ++ '/' :: numeral n' := h
      have e := span_unique (p := (· ≠ '/')) h (fun c hc hx => (addr_parts k).1 (hx ▸ hc))
        (fun c hc hx => (addr_parts k').1 (hx ▸ hc)) (noHead_cons.2 (by simp)) (noHead_cons.2 (by simp))
      subst e
      have h := List.append_cancel_left h
      injection h with _ h
      obtain rfl := numeral_inj h
      have := ((parseAddr_iff _ _).2 k).symm.trans ((parseAddr_iff _ _).2 k')
      injection this with this
      subst this
      exact .net
    | bool => exact absurd h netBool
  | @bool b p =>
    cases hw with
    | str => exact uw.elim
    | regex => exact uw.elim
    | number h1 h2 h3 h4 h5 h6 h7 => exact absurd (h5.symm.trans h.symm) (numBool h1 h2 h3 h4)
    | day k' => exact absurd h.symm (timeBool (day_parts k'))
    | stamp k' => exact absurd h.symm (timeBool (stamp_parts k'))
    | net => exact absurd h.symm netBool
    | @bool b' p' =>
      cases b <;> cases b' <;> first | exact .bool | exact absurd h (by simp [Val.toStr])

/-- A printed pattern can be told from what follows. -/
theorem pattern_cut {b b' x y : Str} (hb : ∀ a c d, b = a ++ '/' :: c :: d → c ≠ ')' ∧ c ≠ ',' ∧ c ≠ ']')
    (hb' : ∀ a c d, b' = a ++ '/' :: c :: d → c ≠ ')' ∧ c ≠ ',' ∧ c ≠ ']') (hx : AfterVal x) (hy : AfterVal y)
    (h : b ++ '/' :: x = b' ++ '/' :: y) : b = b' := by
  have key : ∀ {b r x y : Str}, (∀ a c d, b ++ r = a ++ '/' :: c :: d → c ≠ ')' ∧ c ≠ ',' ∧ c ≠ ']') → AfterVal x →
      '/' :: x = r ++ '/' :: y → r = [] := by
    intro b r x y hb hx h
    cases r with
    | nil => rfl
    | cons s r =>
      simp only [List.cons_append, List.cons.injEq] at h
      obtain ⟨rfl, h⟩ := h
      obtain ⟨c, t, rfl, hc⟩ := hx
      cases r with
      | nil =>
        simp only [List.nil_append, List.cons.injEq] at h
        rw [h.1] at hc
        exact absurd hc (by decide)
      | cons d r =>
        simp only [List.cons_append, List.cons.injEq] at h
        have := hb b d r rfl
        rw [← h.1] at this
        rcases hc with hc | hc | hc
        · exact absurd hc this.1
        · exact absurd hc this.2.1
        · exact absurd hc this.2.2
  rcases List.append_eq_append_iff.1 h with ⟨r, rfl, h2⟩ | ⟨r, rfl, h2⟩
  · rw [key hb' hx h2, List.append_nil]
  · rw [key hb hy h2, List.append_nil]

/-- A printed value can be told from what follows. -/
theorem kind_cut {v w : Val} {x y : Str} (hv : Kind E v) (hw : Kind E w) (hx : AfterVal x) (hy : AfterVal y)
    (h : v.toStr E ++ x = w.toStr E ++ y) : SameValue v w ∧ v.toStr E = w.toStr E ∧ x = y := by
  have bare : Undelimited v → Undelimited w → SameValue v w ∧ v.toStr E = w.toStr E ∧ x = y := by
    intro uv uw
    have bv : ∀ c ∈ v.toStr E, Bare c := by
      obtain ⟨c, u, e, k⟩ := kind_cons hv
      rw [e]
      cases v <;> first | exact k.2 | exact uv.elim
    have bw : ∀ c ∈ w.toStr E, Bare c := by
      obtain ⟨c, u, e, k⟩ := kind_cons hw
      rw [e]
      cases w <;> first | exact k.2 | exact uw.elim
    have e := span_unique h bv bw hx.noBare hy.noBare
    refine ⟨kind_same hv hw uv uw e, e, ?_⟩
    rw [e] at h
    exact List.append_cancel_left h
  obtain ⟨c, u, e, k⟩ := kind_cons hv
  obtain ⟨c', u', e', k'⟩ := kind_cons hw
  have hc : c = c' := by rw [e, e'] at h; injection h
  have other : ∀ {c : Char}, Dig c ∨ c = '-' ∨ c = 't' ∨ c = 'f' → c ≠ '"' ∧ c ≠ '/' := by
    rintro c h
    constructor <;> (rintro rfl; revert h; decide)
  subst hc
  cases v with
  | str s p =>
    subst k
    cases w with
    | str s' p' =>
      obtain ⟨rfl, rfl⟩ := quote_inj h
      exact ⟨.str, rfl, rfl⟩
    | regex => cases k'
    | _ => exact absurd rfl (other k'.1).1
  | regex s src p =>
    subst k
    cases w with
    | str => cases k'
    | regex s' src' p' =>
      cases hv with
      | number _ _ _ _ _ _ h7 => generalize toF64 _ = f at h7; cases h7
      | @regex b _ _ h1 h2 =>
        cases hw with
        | number _ _ _ _ _ _ h7 => generalize toF64 _ = f at h7; cases h7
        | @regex b' _ _ k1 k2 =>
          simp only [Val.toStr, List.cons_append, List.append_assoc, List.nil_append, List.cons.injEq, true_and] at h
          obtain rfl := pattern_cut h1 k1 hx hy h
          have h := List.append_cancel_left h
          injection h with _ h
          subst h; subst h2; subst k2
          exact ⟨.regex, rfl, rfl⟩
    | _ => exact absurd rfl (other k'.1).2
  | _ =>
    cases w with
    | str => exact absurd k' (other k.1).1
    | regex => exact absurd k' (other k.1).2
    | _ => exact bare trivial trivial

end Aql
