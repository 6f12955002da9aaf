import Verif.Proofs.Layout
/-!
Comparisons with a bare field name and an unquoted literal.
-/

namespace Aql

open Spec

variable {E : Env} {pre a : Str}

/-- The query `p:t`. -/
theorem query_lit {p t : Str} {xs : List Str} {v : Val} (hp : Path E p xs) (ht : Lit E (p ++ [':']) t v) :
    Query E (p ++ ':' :: t) (.expr .EQ (withoutStars xs) [v] (posAt [] (p ++ ':' :: t))) := by
  refine ⟨[], p ++ ':' :: t, [], ws_nil, ws_nil, .orAnd (.andNot (.notCmp ?_)), by simp⟩
  exact .compare (w1 := []) (w2 := []) (w3 := []) hp ws_nil ws_nil .eq ws_nil (.one (by simpa using ht)) (by simp)

theorem unplaced_pos {v w : Val} (h : unplaced v = unplaced w) (hp : v.pos = w.pos) : v = w := by
  cases v <;> cases w <;> simp_all [unplaced, Val.pos]

/-- No white space. -/
theorem ws_of_none {s w : Str} (hs : ∀ c ∈ s, ¬ IsWs c) (hw : Ws w) (hm : ∀ c ∈ w, c ∈ s) : w = [] := by
  cases w with
  | nil => rfl
  | cons c w => exact absurd (hw c (by simp)) (hs c (hm c (by simp)))

theorem text_oneWord {L : Level} {n : Node} {s : Str} (h : Text E L pre s n) (hs : ∀ c ∈ s, ¬ IsWs c)
    (h1 : NoHead (· = '!') s) : Text E .cmp pre s n := by
  have ho : ∀ {w : Str}, Space w → (∀ c ∈ w, c ∈ s) → False := by
    intro w hw hm
    exact hw.2 (ws_of_none hs hw.1 hm)
  induction h with
  | group k1 k2 k3 => exact .group k1 k2 k3
  | noArgs k1 k2 k3 k4 k5 => exact .noArgs k1 k2 k3 k4 k5
  | compare k1 k2 k3 k4 k5 k6 k7 => exact .compare k1 k2 k3 k4 k5 k6 k7
  | notCmp h _ => exact h
  | not hk _ _ =>
    cases hk with
    | word hw => exact (ho hw (by intro c hc; simp [hc])).elim
    | bang hw => rw [List.cons_append, noHead_cons] at h1; exact absurd rfl h1
  | andNot h ih => exact ih hs h1 ho
  | and _ hw _ _ _ _ => exact (ho hw (by intro c hc; simp [hc])).elim
  | orAnd h ih => exact ih hs h1 ho
  | or _ hw _ _ _ _ => exact (ho hw (by intro c hc; simp [hc])).elim

theorem path_noColon {p : Str} {xs : List Str} (h : Path E p xs) (hq : '"' ∉ p) : ':' ∉ p := by
  have piece : ∀ {t x}, Piece E t x → '"' ∉ t → ':' ∉ t := by
    intro t x h hq
    cases h with
    | quoted => simp at hq
    | bare _ h => exact fun hm => not_fieldChar (E := E) (by decide) (by decide) (h _ hm)
    | star => decide
  induction h with
  | one h => exact piece h hq
  | @cons t x s xs h _ ih =>
    simp only [List.mem_append, List.mem_cons, not_or] at hq ⊢
    exact ⟨piece h hq.1, by decide, ih hq.2.2⟩

theorem split_colon {p p' t t' : Str} (h : p ++ ':' :: t = p' ++ ':' :: t') (hp : ':' ∉ p) (hp' : ':' ∉ p') :
    p = p' ∧ t = t' := by
  have := span_unique (p := (· ≠ ':')) h (by rintro c hc rfl; exact hp hc) (by rintro c hc rfl; exact hp' hc)
    (by simp) (by simp)
  subst this
  exact ⟨rfl, by simpa using h⟩

/-- What the value of `p:t` is, when both are single words. -/
theorem bare_query {p t : Str} (hp : p ≠ []) (hp' : ∀ c ∈ p, FieldChar E c) (ht : ∀ c ∈ t, ¬ IsWs c ∧ c ≠ '"' ∧ c ≠ '(')
    (hd : ∃ c u, t = c :: u ∧ (Dig c ∨ c = '-')) :
    (∃ n, Query E (p ++ ':' :: t) n) ↔ ∃ v, Lit E (p ++ [':']) t v := by
  constructor
  · rintro ⟨n, w1, q, w2, h1, h2, h, hs⟩
    have hnw : ∀ c ∈ p ++ ':' :: t, ¬ IsWs c := by
      intro c hc
      simp only [List.mem_append, List.mem_cons] at hc
      rcases hc with hc | rfl | hc
      · exact fun hw => not_fieldChar_ws hw (hp' c hc)
      · decide
      · exact (ht c hc).1
    have e1 := ws_of_none hnw h1 (by intro c hc; rw [hs]; simp [hc])
    have e2 := ws_of_none hnw h2 (by intro c hc; rw [hs]; simp [hc])
    subst e1 e2
    simp only [List.nil_append, List.append_nil] at hs
    subst hs
    obtain ⟨c0, p0, rfl⟩ : ∃ c u, p = c :: u := by cases p <;> simp_all
    have hc0 := hp' c0 (by simp)
    have h := text_oneWord h hnw (by
      rw [List.cons_append, noHead_cons]; rintro rfl; exact not_fieldChar (E := E) (by decide) (by decide) hc0)
    have hq : '"' ∉ (c0 :: p0) ++ ':' :: t := by
      intro hm
      simp only [List.mem_append, List.mem_cons (a := '"') (b := ':')] at hm
      rcases hm with hm | hm | hm
      · exact not_fieldChar (E := E) (by decide) (by decide) (hp' _ hm)
      · exact absurd hm (by decide)
      · exact (ht _ hm).2.1 rfl
    have hcp : ':' ∉ c0 :: p0 := fun hm => not_fieldChar (E := E) (by decide) (by decide) (hp' _ hm)
    have hpq : ∀ {p' xs w r}, Path E p' xs → Ws w → (c0 :: p0) ++ ':' :: t = p' ++ (w ++ ':' :: r) → p' = c0 :: p0 ∧ w = [] ∧ r = t := by
      intro p' xs w r hp hw e
      have hw' : w = [] := ws_of_none hnw hw (by intro c hc; rw [e]; simp [hc])
      subst hw'
      rw [List.nil_append] at e
      obtain ⟨e1, e2⟩ := split_colon e hcp (path_noColon hp fun hm => hq (by rw [e]; simp [hm]))
      exact ⟨e1.symm, rfl, e2.symm⟩
    obtain ⟨d, u, rfl, hd⟩ := hd
    generalize hg : (c0 :: p0) ++ ':' :: (d :: u) = g at h
    cases h with
    | group =>
      have : c0 = '(' := (List.cons.inj hg).1
      subst this
      exact absurd hc0 (not_fieldChar (by decide) (by decide))
    | @noArgs _ p' xs w1 w2 o op _ h1 h2 h3 h4 h5 =>
      rw [h5] at hg
      obtain ⟨rfl, rfl, e⟩ := hpq h1 h2 hg
      have : w2 = [] := ws_of_none (fun c hc => (ht c hc).1) h3 (by intro c hc; rw [← e]; simp [hc])
      subst this
      exfalso
      cases h4 <;> (simp at e; obtain ⟨rfl, -⟩ := e; revert hd; decide)
    | @compare _ p' xs w1 w2 o op w3 s vs _ h1 h2 h3 h4 h5 h6 h7 =>
      rw [h7] at hg
      obtain ⟨rfl, rfl, e⟩ := hpq h1 h2 hg
      have hm : ∀ c ∈ w2 ++ (o ++ (w3 ++ s)), ¬ IsWs c := by rw [e]; exact fun c hc => (ht c hc).1
      have : w2 = [] := ws_of_none hm h3 (by intro c hc; simp [hc])
      subst this
      have : w3 = [] := ws_of_none hm h5 (by intro c hc; simp [hc])
      subst this
      have ho : o = [] := by
        cases h4 <;> first
          | rfl
          | (exfalso; simp at e; obtain ⟨rfl, -⟩ := e; revert hd; decide)
      subst ho
      simp only [List.nil_append] at e h6
      subst e
      cases h6 with
      | one hv => exact ⟨_, by simpa using hv⟩
      | list => exact absurd rfl (ht '(' (by simp)).2.2
  · rintro ⟨v, hv⟩
    exact ⟨_, query_lit (.one (.bare hp hp')) hv⟩

/-! ### Which texts are literals -/

theorem minus_digits_mem {m a : Str} (hm : Minus m) (ha : AllDigits a) {c : Char} (h : c ∈ m ++ a) : Dig c ∨ c = '-' := by
  rcases List.mem_append.1 h with h | h
  · rcases hm with rfl | rfl
    · cases h
    · simp at h; exact .inr h
  · exact .inl (ha c h)

theorem minus_unique {m m' a a' : Str} (hm : Minus m) (hm' : Minus m') (ha : AllDigits a) (ha' : AllDigits a')
    (h : m ++ a = m' ++ a') : m = m' ∧ a = a' := by
  rcases hm with rfl | rfl <;> rcases hm' with rfl | rfl
  · exact ⟨rfl, by simpa using h⟩
  · have h : a = '-' :: a' := h
    exact absurd (ha '-' (by rw [h]; simp)) (by decide)
  · have h : '-' :: a = a' := h
    exact absurd (ha' '-' (by rw [← h]; simp)) (by decide)
  · exact ⟨rfl, by simpa using h⟩

theorem date_mem {t : Str} {x : Date} (h : DateText t x) : '-' ∈ t ∧ (∀ c ∈ t, Dig c ∨ c = '-') ∧ NoHead (· = '-') t := by
  obtain ⟨a, b, c, ha, ha4, hb, -, hc, -, rfl, -⟩ := h
  refine ⟨by simp, ?_, ?_⟩
  · intro d hd
    simp only [List.mem_append, List.mem_cons] at hd
    rcases hd with h | rfl | h | rfl | h
    · exact .inl (ha _ h)
    · exact .inr rfl
    · exact .inl (hb _ h)
    · exact .inr rfl
    · exact .inl (hc _ h)
  · exact digits_noHead ha (by rintro rfl; cases ha4) (by rintro c hc rfl; revert hc; decide)

theorem numeral_dig {n : Nat} {c : Char} (h : c ∈ numeral n) : Dig c := (isDig_iff c).1 (numeral_digits n c h)

/-- Integer text is a literal iff it denotes a 64-bit integer. -/
theorem lit_int {m a : Str} {v : Val} (hm : Minus m) (ha : a ≠ []) (hd : AllDigits a) (h : Lit E pre (m ++ a) v) :
    ∃ n, IntText (m ++ a) n ∧ -(2 ^ 63 : Int) ≤ n ∧ n < 2 ^ 63 ∧ v = .int n (m ++ a) (posAt pre (m ++ a)) := by
  have mem : ∀ c ∈ m ++ a, Dig c ∨ c = '-' := fun c => minus_digits_mem hm hd
  have nodate : ∀ {dt r : Str} {x : Date}, DateText dt x → m ++ a ≠ dt ++ r := by
    intro dt r x h e
    obtain ⟨h1, h2, h3⟩ := date_mem h
    rcases hm with rfl | rfl
    · have := hd '-' (by rw [List.nil_append] at e; rw [e]; simp [h1])
      exact absurd this (by decide)
    · obtain ⟨c, u, rfl⟩ : ∃ c u, dt = c :: u := by cases dt <;> simp_all
      rw [List.cons_append, List.cons_append] at e
      rw [noHead_cons] at h3
      exact h3 (by cases e; rfl)
  generalize ht : m ++ a = t at h mem nodate
  cases h with
  | string h1 h2 => exact absurd (mem '"' (by rw [h2]; simp)) (by decide)
  | regex h1 h2 h3 h4 h5 => exact absurd (mem '/' (by rw [h2]; simp)) (by decide)
  | stamp h =>
    obtain ⟨dt, x, n, ct, secs, ft, ns, zt, off, h1, -, -, -, -, -, e, -⟩ := h
    exact absurd e (nodate h1)
  | day h =>
    obtain ⟨x, h1, -⟩ := h
    exact absurd (List.append_nil t).symm (nodate h1)
  | address h =>
    obtain ⟨w, x, y, z, -, -, -, -, e, -⟩ := h
    exact absurd (mem '.' (by rw [e]; simp)) (by decide)
  | block h _ e => exact absurd (mem '/' (by rw [e]; simp)) (by decide)
  | float _ _ _ _ _ e => exact absurd (mem '.' (by rw [e]; simp)) (by decide)
  | int h1 h2 h3 h4 h5 h6 h7 => exact ⟨_, h5, h6, h7, rfl⟩
  | true_ => exact absurd (mem 't' (by decide)) (by decide)
  | false_ => exact absurd (mem 'f' (by decide)) (by decide)

theorem lit_date {t : Str} {x : Date} {v : Val} (hx : DateText t x) (h : Lit E pre t v) :
    ∃ i, DayText t i ∧ v = .time t i true (posAt pre t) := by
  obtain ⟨h1, mem, h3⟩ := date_mem hx
  have h10 := date_length hx
  cases h with
  | string _ h2 => exact absurd (mem '"' (by rw [h2]; simp)) (by decide)
  | regex _ h2 => exact absurd (mem '/' (by rw [h2]; simp)) (by decide)
  | stamp h => exact absurd h10 (stamp_len h)
  | day h => exact ⟨_, h, rfl⟩
  | address h =>
    obtain ⟨w, x, y, z, -, -, -, -, e, -⟩ := h
    exact absurd (mem '.' (by rw [e]; simp)) (by decide)
  | block h _ e => exact absurd (mem '/' (by rw [e]; simp)) (by decide)
  | float _ _ _ _ _ e => exact absurd (mem '.' (by rw [e]; simp)) (by decide)
  | @int _ m a n hm _ ha e =>
    rcases hm with rfl | rfl
    · rw [List.nil_append] at e; subst e
      exact absurd (ha '-' h1) (by decide)
    · rw [e] at h3
      exact absurd rfl (h3 '-' a rfl)
  | true_ => exact absurd (mem 't' (by decide)) (by decide)
  | false_ => exact absurd (mem 'f' (by decide)) (by decide)

theorem lit_quad {a b c d : Str} {v : Val} (ha : Digits 3 a) (hb : Digits 3 b) (hc : Digits 3 c) (hd : Digits 3 d)
    (h : Lit E pre (a ++ '.' :: (b ++ '.' :: (c ++ '.' :: d))) v) :
    ∃ x, AddrText (a ++ '.' :: (b ++ '.' :: (c ++ '.' :: d))) x ∧
      v = .net (a ++ '.' :: (b ++ '.' :: (c ++ '.' :: d)) ++ "/32".toList) ⟨x, 32⟩
        (posAt pre (a ++ '.' :: (b ++ '.' :: (c ++ '.' :: d)))) := by
  have nodot : ∀ {s : Str}, AllDigits s → s.count '.' = 0 := by
    intro s hs
    rw [List.count_eq_zero]
    exact fun hm => absurd (hs _ hm) (by decide)
  have hcount : (a ++ '.' :: (b ++ '.' :: (c ++ '.' :: d))).count '.' = 3 := by
    simp [List.count_append, nodot ha.2.2, nodot hb.2.2, nodot hc.2.2, nodot hd.2.2]
  have mem : ∀ x ∈ a ++ '.' :: (b ++ '.' :: (c ++ '.' :: d)), Dig x ∨ x = '.' := by
    intro x hx
    simp only [List.mem_append, List.mem_cons] at hx
    rcases hx with h | rfl | h | rfl | h | rfl | h
    · exact .inl (ha.2.2 _ h)
    · exact .inr rfl
    · exact .inl (hb.2.2 _ h)
    · exact .inr rfl
    · exact .inl (hc.2.2 _ h)
    · exact .inr rfl
    · exact .inl (hd.2.2 _ h)
  generalize a ++ '.' :: (b ++ '.' :: (c ++ '.' :: d)) = t at *
  cases h with
  | string _ h2 => exact absurd (mem '"' (by rw [h2]; simp)) (by decide)
  | regex _ h2 => exact absurd (mem '/' (by rw [h2]; simp)) (by decide)
  | stamp h =>
    obtain ⟨dt, x, n, ct, secs, ft, ns, zt, off, h1, -, -, -, -, -, e, -⟩ := h
    exact absurd (mem '-' (by rw [e]; simp [(date_mem h1).1])) (by decide)
  | day h =>
    obtain ⟨x, h1, -⟩ := h
    exact absurd (mem '-' (date_mem h1).1) (by decide)
  | address h => exact ⟨_, h, rfl⟩
  | block h _ e => exact absurd (mem '/' (by rw [e]; simp)) (by decide)
  | @float _ m p q _ _ hm _ hp _ hq e =>
    have : m.count '.' = 0 := by rcases hm with rfl | rfl <;> decide
    rw [e] at hcount
    simp [List.count_append, nodot hp, nodot hq, this] at hcount
  | @int _ m p n hm _ hp e =>
    have : m.count '.' = 0 := by rcases hm with rfl | rfl <;> decide
    rw [e] at hcount
    simp [List.count_append, nodot hp, this] at hcount
  | true_ => exact absurd (mem 't' (by decide)) (by decide)
  | false_ => exact absurd (mem 'f' (by decide)) (by decide)

end Aql
