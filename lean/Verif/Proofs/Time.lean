import Mathlib.Tactic.IntervalCases
import Verif.Model.Ast
import Verif.Spec.Calendar
import Verif.Proofs.Number
/-! Dates: the day count, the order, and the two time layouts. -/

namespace Aql

open Spec

theorem isLeap_iff (y : Nat) : isLeap y = true ↔ Leap y := by
  simp only [isLeap, Leap, Bool.and_eq_true, Bool.or_eq_true, beq_iff_eq, bne_iff_ne,
    Nat.dvd_iff_mod_eq_zero]
  omega

theorem daysIn_eq {y m : Nat} (h1 : 1 ≤ m) (h2 : m ≤ 12) : daysIn y m = monthLength y m := by
  have : (if isLeap y = true then 29 else 28) = (if Leap y then 29 else 28) := by
    simp only [isLeap_iff]
  interval_cases m <;> simp [daysIn, monthLength, this]

theorem daysBeforeMonth_succ {y m : Nat} (h1 : 1 ≤ m) (h2 : m ≤ 11) :
    daysBeforeMonth y (m + 1) = daysBeforeMonth y m + daysIn y m := by
  cases hl : isLeap y <;> interval_cases m <;> simp [daysBeforeMonth, daysIn, hl]

theorem daysBeforeYear_succ (y : Nat) :
    daysBeforeYear (y + 1) = daysBeforeYear y + (if isLeap y then 366 else 365) := by
  cases y with
  | zero => rfl
  | succ n =>
    have hl := isLeap_iff (n + 1)
    simp only [Leap, Nat.dvd_iff_mod_eq_zero] at hl
    have e1 : daysBeforeYear (n + 1 + 1) = 366 + (n + 1) * 365 + (n + 1) / 4 - (n + 1) / 100 + (n + 1) / 400 := rfl
    have e2 : daysBeforeYear (n + 1) = 366 + n * 365 + n / 4 - n / 100 + n / 400 := rfl
    have k4 : (n + 1) / 4 = n / 4 + if (n + 1) % 4 = 0 then 1 else 0 := by split <;> omega
    have k100 : (n + 1) / 100 = n / 100 + if (n + 1) % 100 = 0 then 1 else 0 := by split <;> omega
    have k400 : (n + 1) / 400 = n / 400 + if (n + 1) % 400 = 0 then 1 else 0 := by split <;> omega
    have d1 : (n + 1) % 400 = 0 → (n + 1) % 100 = 0 := by omega
    have d2 : (n + 1) % 100 = 0 → (n + 1) % 4 = 0 := by omega
    have le : n / 100 ≤ n / 4 := by omega
    rw [e1, e2, k4, k100, k400]
    clear e1 e2 k4 k100 k400
    generalize n / 4 = a at *
    generalize n / 100 = b at *
    generalize n / 400 = c at *
    by_cases g4 : (n + 1) % 4 = 0 <;> by_cases g100 : (n + 1) % 100 = 0 <;>
      by_cases g400 : (n + 1) % 400 = 0 <;> simp only [g4, g100, g400, hl, if_true, if_false,
        not_true, not_false_iff, and_true, and_false, or_true, or_false] at * <;>
      first | omega | (exact absurd (d1 trivial) id) | (exact absurd (d2 trivial) id)

theorem monthLength_pos {y m : Nat} (h1 : 1 ≤ m) (h2 : m ≤ 12) : 28 ≤ monthLength y m := by
  rw [← daysIn_eq h1 h2]
  unfold daysIn
  split <;> first | omega | (split <;> omega)

theorem dec31 (y : Nat) : daysBeforeMonth y 12 + 30 + 1 = (if isLeap y then 366 else 365) := by
  cases hl : isLeap y <;> simp [daysBeforeMonth, hl]

/-- The day after is one day later. -/
theorem dayNumber_next {x : Date} (h : x.Valid) :
    dayNumber x.next.y x.next.m x.next.d = dayNumber x.y x.m x.d + 1 := by
  obtain ⟨y, m, d⟩ := x
  obtain ⟨h1, h2, h3, h4⟩ := h
  dsimp only at h1 h2 h3 h4
  simp only [Date.next]
  split
  · simp only [dayNumber]; omega
  · rename_i hd
    split
    · rename_i hm
      have hs := daysBeforeMonth_succ (y := y) h1 (by omega)
      rw [daysIn_eq h1 h2] at hs
      have := monthLength_pos (y := y) h1 h2
      simp only [dayNumber]; omega
    · have hm : m = 12 := by omega
      subst hm
      have h31 : monthLength y 12 = 31 := rfl
      have hy := daysBeforeYear_succ y
      have hd := dec31 y
      have h0 : daysBeforeMonth (y + 1) 1 = 0 := by simp [daysBeforeMonth]
      simp only [dayNumber, h0]
      omega

theorem Spec.Date.next_valid {x : Date} (h : x.Valid) : x.next.Valid := by
  obtain ⟨y, m, d⟩ := x
  obtain ⟨h1, h2, h3, h4⟩ := h
  dsimp only at h1 h2 h3 h4
  unfold Date.next
  dsimp only
  split
  · exact ⟨h1, h2, by dsimp only; omega, by dsimp only; omega⟩
  · split
    · have := monthLength_pos (y := y) (m := m + 1) (by omega) (by omega)
      exact ⟨by dsimp only; omega, by dsimp only; omega, by dsimp only; omega, by dsimp only; omega⟩
    · have := monthLength_pos (y := y + 1) (m := 1) (by omega) (by omega)
      exact ⟨by dsimp only; omega, by dsimp only; omega, by dsimp only; omega, by dsimp only; omega⟩

theorem dayNumber_epoch : dayNumber 1970 1 1 = 0 := by decide +kernel

theorem epoch_valid : (⟨1970, 1, 1⟩ : Date).Valid := by
  refine ⟨by decide, by decide, by decide, ?_⟩
  have := monthLength_pos (y := 1970) (m := 1) (by omega) (by omega)
  dsimp only; omega

theorem Spec.DayCount.valid {x : Date} {n : Int} (h : DayCount x n) : x.Valid := by
  induction h with
  | epoch => exact epoch_valid
  | forward _ ih => exact Spec.Date.next_valid ih
  | backward hv _ _ => exact hv

/-- Counting days gives `dayNumber`. -/
theorem dayNumber_of_count {x : Date} {n : Int} (h : DayCount x n) : dayNumber x.y x.m x.d = n := by
  induction h with
  | epoch => exact dayNumber_epoch
  | forward hc ih => rw [dayNumber_next hc.valid, ih]
  | backward hv _ ih => rw [dayNumber_next hv] at ih; omega

theorem daysBeforeMonth_le {y : Nat} {a b : Nat} (ha : 1 ≤ a) (hab : a < b) (hb : b ≤ 12) :
    daysBeforeMonth y a + monthLength y a ≤ daysBeforeMonth y b := by
  obtain ⟨k, rfl⟩ : ∃ k, b = a + 1 + k := ⟨b - (a + 1), by omega⟩
  clear hab
  induction k with
  | zero => rw [add_zero, daysBeforeMonth_succ ha (by omega), daysIn_eq ha (by omega)]
  | succ k ih =>
    have := ih (by omega)
    have h2 := daysBeforeMonth_succ (y := y) (m := a + 1 + k) (by omega) (by omega)
    have : a + 1 + (k + 1) = a + 1 + k + 1 := by omega
    rw [this, h2]; omega

theorem daysInYear_le {x : Date} (h : x.Valid) :
    daysBeforeMonth x.y x.m + x.d ≤ (if isLeap x.y then 366 else 365) := by
  obtain ⟨y, m, d⟩ := x
  obtain ⟨h1, h2, h3, h4⟩ := h
  dsimp only at *
  have hd := dec31 y
  rcases Nat.lt_or_ge m 12 with hm | hm
  · have := daysBeforeMonth_le (y := y) h1 hm (by omega)
    omega
  · have : m = 12 := by omega
    subst this
    have h31 : monthLength y 12 = 31 := rfl
    omega

theorem daysBeforeYear_le {a b : Nat} (h : a < b) :
    daysBeforeYear a + (if isLeap a then 366 else 365) ≤ daysBeforeYear b := by
  obtain ⟨k, rfl⟩ : ∃ k, b = a + 1 + k := ⟨b - (a + 1), by omega⟩
  clear h
  induction k with
  | zero => rw [add_zero, daysBeforeYear_succ]
  | succ k ih =>
    have : a + 1 + (k + 1) = a + 1 + k + 1 := by omega
    rw [this, daysBeforeYear_succ (a + 1 + k)]
    omega

theorem dayNumber_lt {a b : Date} (ha : a.Valid) (hb : b.Valid) (h : a.Before b) :
    dayNumber a.y a.m a.d < dayNumber b.y b.m b.d := by
  have h3 := ha.2.2.1
  have h4 := hb.2.2.1
  rcases h with h | ⟨h, h' | ⟨h', h''⟩⟩
  · have h1 := daysBeforeYear_le h
    have h2 := daysInYear_le ha
    simp only [dayNumber]
    omega
  · have h1 := daysBeforeMonth_le (y := a.y) ha.1 h' hb.2.1
    have h2 := ha.2.2.2
    simp only [dayNumber, ← h]
    omega
  · simp only [dayNumber, ← h, ← h']
    omega

theorem Spec.Date.trichotomy (a b : Date) : a.Before b ∨ a = b ∨ b.Before a := by
  obtain ⟨y, m, d⟩ := a
  obtain ⟨y', m', d'⟩ := b
  simp only [Date.Before, Date.mk.injEq]
  omega

/-- Day numbers are ordered like the calendar. -/
theorem dayNumber_lt_iff {a b : Date} (ha : a.Valid) (hb : b.Valid) :
    dayNumber a.y a.m a.d < dayNumber b.y b.m b.d ↔ a.Before b := by
  constructor
  · intro h
    rcases a.trichotomy b with h' | h' | h'
    · exact h'
    · subst h'; omega
    · have := dayNumber_lt hb ha h'; omega
  · exact dayNumber_lt ha hb

/-- Every date has a day count, and it is `dayNumber`. -/
theorem dayCount_exists {x : Date} (h : x.Valid) : DayCount x (dayNumber x.y x.m x.d) := by
  -- every date is reached from the first day of year 0 by `next`; so is the epoch
  have reach : ∀ n : Nat, ∀ x : Date, x.Valid →
      daysBeforeYear x.y + daysBeforeMonth x.y x.m + (x.d - 1) = n →
      ∀ p : Date → Prop, p ⟨0, 1, 1⟩ → (∀ y : Date, y.Valid → p y → p y.next) → p x := by
    intro n
    induction n with
    | zero =>
      intro x hx hn p hp _
      have : ¬ (⟨0, 1, 1⟩ : Date).Before x := by
        intro hb
        have hv : (⟨0, 1, 1⟩ : Date).Valid := by
          have := monthLength_pos (y := 0) (m := 1) (by omega) (by omega)
          exact ⟨by decide, by decide, by decide, by dsimp only; omega⟩
        have := dayNumber_lt hv hx hb
        simp only [dayNumber] at this
        have h0 : daysBeforeYear 0 = 0 := rfl
        have h1 : daysBeforeMonth 0 1 = 0 := rfl
        omega
      obtain ⟨y, m, d⟩ := x
      obtain ⟨h1, h2, h3, h4⟩ := hx
      simp only [Date.Before] at *
      have : y = 0 ∧ m = 1 ∧ d = 1 := by omega
      obtain ⟨rfl, rfl, rfl⟩ := this
      exact hp
    | succ n ih =>
      intro x hx hn p hp hs
      -- the day before x
      have prev : ∃ w : Date, w.Valid ∧ w.next = x := by
        obtain ⟨y, m, d⟩ := x
        obtain ⟨h1, h2, h3, h4⟩ := hx
        dsimp only at h1 h2 h3 h4 hn
        rcases Nat.lt_or_ge 1 d with hd | hd
        · refine ⟨⟨y, m, d - 1⟩, ⟨h1, h2, by dsimp only; omega, by dsimp only; omega⟩, ?_⟩
          simp only [Date.next]
          rw [if_pos (by omega)]
          congr; omega
        · have hd1 : d = 1 := by omega
          subst hd1
          rcases Nat.lt_or_ge 1 m with hm | hm
          · have hp' := monthLength_pos (y := y) (m := m - 1) (by omega) (by omega)
            refine ⟨⟨y, m - 1, monthLength y (m - 1)⟩,
              ⟨by dsimp only; omega, by dsimp only; omega, by dsimp only; omega, by dsimp only; omega⟩, ?_⟩
            simp only [Date.next]
            rw [if_neg (by omega), if_pos (by omega)]
            congr; omega
          · have hm1 : m = 1 := by omega
            subst hm1
            cases y with
            | zero =>
              have h0 : daysBeforeYear 0 = 0 := rfl
              have h1 : daysBeforeMonth 0 1 = 0 := rfl
              omega
            | succ y =>
              have h31 : monthLength y 12 = 31 := rfl
              refine ⟨⟨y, 12, 31⟩, ⟨by dsimp only; omega, by dsimp only; omega, by dsimp only; omega, by dsimp only; omega⟩, ?_⟩
              simp only [Date.next]
              rw [if_neg (by omega), if_neg (by omega)]
      obtain ⟨w, hw, rfl⟩ := prev
      have hnum := dayNumber_next hw
      simp only [dayNumber] at hnum
      exact hs w hw (ih w hw (by omega) p hp hs)
  -- backwards from the epoch to the first day, then forwards
  have hzero : (⟨0, 1, 1⟩ : Date).Valid := by
    have := monthLength_pos (y := 0) (m := 1) (by omega) (by omega)
    exact ⟨by decide, by decide, by decide, by dsimp only; omega⟩
  have hback : ∃ n, DayCount ⟨0, 1, 1⟩ n := by
    refine reach _ ⟨1970, 1, 1⟩ epoch_valid rfl
      (fun x => (∃ n, DayCount x n) → ∃ n, DayCount ⟨0, 1, 1⟩ n) id ?_ ⟨0, .epoch⟩
    rintro y hy ih ⟨n, hn⟩
    refine ih ⟨n - 1, .backward hy ?_⟩
    rw [sub_add_cancel]; exact hn
  have : ∃ n, DayCount x n := by
    refine reach _ x h rfl (fun x => ∃ n, DayCount x n) hback ?_
    rintro y _ ⟨n, hn⟩
    exact ⟨n + 1, .forward hn⟩
  obtain ⟨n, hn⟩ := this
  rw [dayNumber_of_count hn]; exact hn

/-! ### texts -/

theorem two_iff (a b : Char) (n : Nat) :
    two a b = some n ↔ AllDigits [a, b] ∧ n = digitsValue [a, b] := by
  unfold two
  rw [allDigits_iff]
  simp only [List.mem_cons, List.not_mem_nil, or_false, forall_eq_or_imp, forall_eq, digitsValue,
    List.length_cons, List.length_nil, digVal]
  by_cases h : isDig a = true ∧ isDig b = true
  · rw [if_pos (by simp [h])]
    simp [h, eq_comm]
  · rw [if_neg (by simpa using h)]
    simp [h]

theorem len2 {s : Str} (h : s.length = 2) : ∃ a b, s = [a, b] := by
  match s, h with
  | [a, b], _ => exact ⟨a, b, rfl⟩

theorem len4 {s : Str} (h : s.length = 4) : ∃ a b c d, s = [a, b, c, d] := by
  match s, h with
  | [a, b, c, d], _ => exact ⟨a, b, c, d, rfl⟩

/-- The date prefix. -/
theorem parseDatePart_iff (s : Str) (y m d : Nat) (rest : Str) :
    parseDatePart s = some (y, m, d, rest) ↔
      (⟨y, m, d⟩ : Date).Valid ∧ ∃ t, DateText t ⟨y, m, d⟩ ∧ s = t ++ rest := by
  constructor
  · intro h
    unfold parseDatePart at h
    split at h
    · rename_i y1 y2 y3 y4 m1 m2 d1 d2 rest'
      rcases h1 : two y1 y2 with _ | ya
      · rw [h1] at h; cases h
      rcases h2 : two y3 y4 with _ | yb
      · rw [h1, h2] at h; cases h
      rcases h3 : two m1 m2 with _ | mm
      · rw [h1, h2, h3] at h; cases h
      rcases h4 : two d1 d2 with _ | dd
      · rw [h1, h2, h3, h4] at h; cases h
      rw [h1, h2, h3, h4] at h
      dsimp only [Option.bind_eq_bind, Option.bind] at h
      split at h
      · rename_i hv
        simp only [Option.some.injEq, Prod.mk.injEq] at h
        obtain ⟨rfl, rfl, rfl, rfl⟩ := h
        rw [two_iff] at h1 h2 h3 h4
        refine ⟨⟨hv.1, hv.2.1, hv.2.2.1, ?_⟩, [y1, y2, y3, y4] ++ '-' :: ([m1, m2] ++ '-' :: [d1, d2]),
          ⟨[y1, y2, y3, y4], [m1, m2], [d1, d2], ?_, rfl, h3.1, rfl, h4.1, rfl, rfl, ?_, h3.2, h4.2⟩,
          rfl⟩
        · rw [← daysIn_eq hv.1 hv.2.1]; exact hv.2.2.2
        · intro c hc
          have e : c ∈ [y1, y2] ∨ c ∈ [y3, y4] := by simpa [or_assoc] using hc
          rcases e with e | e
          · exact h1.1 c e
          · exact h2.1 c e
        · have : [y1, y2, y3, y4] = [y1, y2] ++ [y3, y4] := rfl
          dsimp only
          rw [this, digitsValue_append, ← h1.2, ← h2.2]; rfl
      · cases h
    · cases h
  · rintro ⟨⟨v1, v2, v3, v4⟩, t, ⟨a, b, c, ha, la, hb, lb, hc, lc, rfl, hy, hm, hd⟩, rfl⟩
    obtain ⟨y1, y2, y3, y4, rfl⟩ := len4 la
    obtain ⟨m1, m2, rfl⟩ := len2 lb
    obtain ⟨d1, d2, rfl⟩ := len2 lc
    dsimp only at v1 v2 v3 v4 hy hm hd
    have g1 := (two_iff y1 y2 _).2 ⟨fun c hc => ha c (by simp at hc ⊢; tauto), rfl⟩
    have g2 := (two_iff y3 y4 _).2 ⟨fun c hc => ha c (by simp at hc ⊢; tauto), rfl⟩
    have g3 := (two_iff m1 m2 _).2 ⟨hb, rfl⟩
    have g4 := (two_iff d1 d2 _).2 ⟨hc, rfl⟩
    have hyy : digitsValue [y1, y2] * 100 + digitsValue [y3, y4] = y := by
      have : [y1, y2, y3, y4] = [y1, y2] ++ [y3, y4] := rfl
      rw [hy, this, digitsValue_append]; rfl
    simp only [List.cons_append, List.nil_append, parseDatePart, g1, g2, g3, g4,
      Option.bind_eq_bind, Option.bind_some]
    rw [hyy, ← hm, ← hd, if_pos ⟨v1, v2, v3, by rw [daysIn_eq v1 v2]; exact v4⟩]

/-- Day literals. -/
theorem parseDay_iff (s : Str) (i : Int) :
    parseDay s = some i ↔ ∃ x, DateText s x ∧ x.Valid ∧ ∃ n, DayCount x n ∧ i = n * dayNanos := by
  have hinst : ∀ y m d, instant y m d 0 0 0 0 0 = dayNumber y m d * dayNanos := by
    intro y m d; simp [instant, dayNanos, nsPerDay]
  unfold parseDay
  constructor
  · intro h
    split at h
    · rename_i y m d he
      rw [parseDatePart_iff] at he
      obtain ⟨hv, t, ht, rfl⟩ := he
      cases h
      rw [List.append_nil]
      exact ⟨_, ht, hv, _, dayCount_exists hv, hinst _ _ _⟩
    · cases h
  · rintro ⟨⟨y, m, d⟩, ht, hv, n, hc, rfl⟩
    have := (parseDatePart_iff s y m d []).2 ⟨hv, s, ht, by simp⟩
    rw [this]
    simp only [hinst]
    rw [← dayNumber_of_count hc]

theorem Spec.DateText.unique {s : Str} {a b : Date} (h1 : DateText s a) (h2 : DateText s b) : a = b := by
  obtain ⟨p, q, r, -, lp, -, lq, -, lr, he, e1, e2, e3⟩ := h1
  obtain ⟨p', q', r', -, lp', -, lq', -, lr', he', e1', e2', e3'⟩ := h2
  rw [he] at he'
  have h := List.append_inj he' (by omega)
  obtain ⟨rfl, h⟩ := h
  rw [List.cons.injEq] at h
  obtain ⟨rfl, h3⟩ := List.append_inj h.2 (by omega)
  rw [List.cons.injEq] at h3
  obtain ⟨y, m, d⟩ := a
  obtain ⟨y', m', d'⟩ := b
  simp only at *
  simp [e1, e2, e3, e1', e2', e3', h3]

theorem Spec.DateText.length {s : Str} {a : Date} (h : DateText s a) : s.length = 10 := by
  obtain ⟨p, q, r, -, lp, -, lq, -, lr, rfl, -⟩ := h
  simp [lp, lq, lr]

theorem digitsValue_lt : ∀ s : Str, AllDigits s → digitsValue s < 10 ^ s.length := by
  intro s
  induction s with
  | nil => intro _; simp [digitsValue]
  | cons c s ih =>
    intro h
    have hc := (isDig_iff c).2 (h c (by simp))
    have h1 := digVal_lt hc
    have h2 := ih (fun x hx => h x (by simp [hx]))
    simp only [digVal] at h1
    simp only [digitsValue, List.length_cons, pow_succ]
    nlinarith

theorem fracNanos_eq {ds : Str} (h : AllDigits ds) :
    fracNanos ds = digitsValue ds * 10 ^ 9 / 10 ^ ds.length := by
  unfold fracNanos
  dsimp only
  rw [natOfDigits_eq]
  have hsplit : digitsValue ds = digitsValue (ds.take 9) * 10 ^ (ds.drop 9).length + digitsValue (ds.drop 9) := by
    rw [← digitsValue_append, List.take_append_drop]
  have hr := digitsValue_lt (ds.drop 9) (fun c hc => h c (List.mem_of_mem_drop hc))
  rcases Nat.lt_or_ge 9 ds.length with hl | hl
  · have e1 : (ds.take 9).length = 9 := by rw [List.length_take]; omega
    have e2 : ds.length = (ds.drop 9).length + 9 := by rw [List.length_drop]; omega
    rw [e1, hsplit, e2, pow_add, Nat.mul_div_mul_right _ _ (by positivity)]
    rw [Nat.sub_self, pow_zero, mul_one, mul_comm, Nat.mul_add_div (by positivity),
      Nat.div_eq_of_lt hr, add_zero]
  · have e1 : ds.take 9 = ds := List.take_of_length_le hl
    rw [e1]
    have e2 : (10 : Nat) ^ 9 = 10 ^ (9 - ds.length) * 10 ^ ds.length := by
      rw [← pow_add]; congr 1; omega
    rw [e2, ← mul_assoc, Nat.mul_div_cancel _ (by positivity)]

theorem parseZone_iff (s : Str) (z : Int) : parseZone s = some z ↔ ZoneText s z := by
  constructor
  · intro h
    unfold parseZone at h
    split at h
    · cases h; exact .utc
    · rename_i sg h1 h2 m1 m2
      rcases g1 : two h1 h2 with _ | hh
      · rw [g1] at h; cases h
      rcases g2 : two m1 m2 with _ | mm
      · rw [g1, g2] at h; cases h
      rw [g1, g2] at h
      rw [two_iff] at g1 g2
      dsimp only [Option.bind_eq_bind, Option.bind] at h
      by_cases hr : hh ≤ 24 ∧ mm ≤ 60
      · rw [if_pos hr] at h
        rw [g1.2, g2.2] at hr h
        by_cases hp : sg = '+'
        · rw [if_pos hp] at h
          cases h
          have := ZoneText.offset (sg := sg) g1.1 rfl g2.1 rfl hr.1 hr.2 (.inl hp)
          rw [if_neg (by rw [hp]; decide), one_mul] at this
          exact this
        · rw [if_neg hp] at h
          by_cases hm : sg = '-'
          · rw [if_pos hm] at h
            cases h
            have := ZoneText.offset (sg := sg) g1.1 rfl g2.1 rfl hr.1 hr.2 (.inr hm)
            rw [if_pos hm, neg_one_mul] at this
            exact this
          · rw [if_neg hm] at h; cases h
      · rw [if_neg hr] at h; cases h
    · cases h
  · intro h
    cases h with
    | utc => rfl
    | @offset sg h m ha la hb lb r1 r2 hsg =>
      obtain ⟨h1, h2, rfl⟩ := len2 la
      obtain ⟨m1, m2, rfl⟩ := len2 lb
      have g1 := (two_iff h1 h2 _).2 ⟨ha, rfl⟩
      have g2 := (two_iff m1 m2 _).2 ⟨hb, rfl⟩
      simp only [List.cons_append, List.nil_append, parseZone, g1, g2,
        Option.bind_eq_bind, Option.bind_some]
      rw [if_pos ⟨r1, r2⟩]
      rcases hsg with rfl | rfl
      · rw [if_pos rfl, if_neg (by decide), one_mul]
      · rw [if_neg (by decide), if_pos rfl, if_pos rfl, neg_one_mul]

theorem Spec.ZoneText.head {s : Str} {z : Int} (h : ZoneText s z) :
    ∃ c t, s = c :: t ∧ isDig c = false ∧ c ≠ '.' := by
  cases h with
  | utc => exact ⟨_, _, rfl, by decide, by decide⟩
  | offset _ _ _ _ _ _ hsg => rcases hsg with rfl | rfl <;> exact ⟨_, _, rfl, by decide, by decide⟩

/-- Timestamps. -/
theorem parseRFC3339_iff (s : Str) (i : Int) : parseRFC3339 s = some i ↔ StampText s i := by
  have hinst : ∀ y m d hh mm ss ns off, instant y m d hh mm ss ns off =
      dayNumber y m d * dayNanos + ((hh * 3600 + mm * 60 + ss : Nat) - off) * 10 ^ 9 + ns := by
    intros; simp [instant, dayNanos, nsPerDay, nsPerSec]
  constructor
  · intro h
    unfold parseRFC3339 at h
    split at h
    · rename_i y mo d h1 h2 m1 m2 s1 s2 rest he
      rw [parseDatePart_iff] at he
      obtain ⟨hv, t, ht, rfl⟩ := he
      rcases g1 : two h1 h2 with _ | hh
      · rw [g1] at h; cases h
      rcases g2 : two m1 m2 with _ | mm
      · rw [g1, g2] at h; cases h
      rcases g3 : two s1 s2 with _ | ss
      · rw [g1, g2, g3] at h; cases h
      rw [g1, g2, g3] at h
      rw [two_iff] at g1 g2 g3
      dsimp only [Option.bind_eq_bind, Option.bind] at h
      by_cases hr : hh ≤ 23 ∧ mm ≤ 59 ∧ ss ≤ 59
      · rw [if_pos hr] at h
        have hclock : ClockText [h1, h2, ':', m1, m2, ':', s1, s2] (hh * 3600 + mm * 60 + ss) := by
          rw [g1.2, g2.2, g3.2] at hr ⊢
          exact ⟨[h1, h2], [m1, m2], [s1, s2], g1.1, rfl, g2.1, rfl, g3.1, rfl, rfl, hr.1, hr.2.1,
            hr.2.2, rfl⟩
        split at h
        · rename_i _ rest' t'
          by_cases hds : t'.takeWhile isDig = []
          · rw [if_pos hds] at h; cases h
          · rw [if_neg hds] at h
            rcases hz : parseZone (t'.dropWhile isDig) with _ | off
            · rw [hz] at h; cases h
            · rw [hz] at h
              dsimp only [Option.bind_eq_bind, Option.bind] at h
              cases h
              have hall : AllDigits (t'.takeWhile isDig) := by
                rw [allDigits_iff]; intro c hc
                exact List.all_eq_true.1 (List.all_takeWhile) c hc
              rw [fracNanos_eq hall, hinst]
              refine ⟨_, _, _, _, _, _, _, _, _, ht, hv, dayCount_exists hv, hclock,
                .frac hds hall, (parseZone_iff _ _).1 hz, ?_, rfl⟩
              conv_lhs => rw [← List.takeWhile_append_dropWhile (p := isDig) (l := t')]
              simp
        · rename_i _ rest' hnd
          rcases hz : parseZone rest with _ | off
          · rw [hz] at h; cases h
          · rw [hz] at h
            dsimp only [Option.bind_eq_bind, Option.bind] at h
            cases h
            rw [hinst]
            refine ⟨_, _, _, _, _, _, _, _, _, ht, hv, dayCount_exists hv, hclock,
                .none, (parseZone_iff _ _).1 hz, ?_, rfl⟩
            simp
      · rw [if_neg hr] at h; cases h
    · cases h
  · rintro ⟨dt, ⟨y, mo, d⟩, n, ct, secs, ft, ns, zt, off, ht, hv, hc, hclock, hf, hz, rfl, rfl⟩
    obtain ⟨h, m, sec, ha, la, hb, lb, hc', lc, rfl, r1, r2, r3, rfl⟩ := hclock
    obtain ⟨h1, h2, rfl⟩ := len2 la
    obtain ⟨m1, m2, rfl⟩ := len2 lb
    obtain ⟨s1, s2, rfl⟩ := len2 lc
    have g1 := (two_iff h1 h2 _).2 ⟨ha, rfl⟩
    have g2 := (two_iff m1 m2 _).2 ⟨hb, rfl⟩
    have g3 := (two_iff s1 s2 _).2 ⟨hc', rfl⟩
    unfold parseRFC3339
    rw [(parseDatePart_iff _ y mo d _).2 ⟨hv, dt, ht, rfl⟩]
    simp only [List.cons_append, List.nil_append, g1, g2, g3, Option.bind_eq_bind,
      Option.bind_some]
    rw [if_pos ⟨r1, r2, r3⟩]
    have hz' := (parseZone_iff _ _).2 hz
    obtain ⟨c, t, rfl, hcd, hcp⟩ := hz.head
    have hday := dayNumber_of_count hc
    dsimp only at hday
    cases hf with
    | none =>
      simp only [List.nil_append]
      split
      · rename_i t' heq
        rw [List.cons.injEq] at heq
        exact absurd heq.1 hcp
      · rw [hz']
        simp only [Option.bind_some, hinst, hday]
    | @frac ds hne hall =>
      have e1 : (ds ++ c :: t).takeWhile isDig = ds := by
        rw [List.takeWhile_append_of_pos]
        · simp [hcd]
        · exact (allDigits_iff ds).1 hall
      have e2 : (ds ++ c :: t).dropWhile isDig = c :: t := by
        rw [List.dropWhile_append_of_pos]
        · simp [hcd]
        · exact (allDigits_iff ds).1 hall
      simp only [List.cons_append, e1, e2, if_neg hne, hz', Option.bind_some, hinst, hday,
        fracNanos_eq hall]

end Aql
