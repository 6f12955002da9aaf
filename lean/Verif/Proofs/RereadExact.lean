import Verif.Proofs.Reread
/-!
Which printed comparisons can be read again: the converse of `Proofs.Reread`.
-/

namespace Aql

open Spec

variable {E : Env}

/-! ### Strings -/

theorem quoteChar_cases (c : Char) :
    (quoteChar E c = [c] ∧ c ≠ '"' ∧ c ≠ '\\' ∧ 32 ≤ c.toNat ∧ WritableChar E c) ∨
    (∃ k, k ∈ ['"', '\\', 'b', 'f', 'n', 'r', 't'] ∧ quoteChar E c = ['\\', k] ∧ WritableChar E c) ∨
    (quoteChar E c = '\\' :: 'u' :: hexDigits 4 c.toNat ∧ WritableChar E c) ∨
    (∃ k r, k ∈ ['a', 'v', 'x', 'U'] ∧ quoteChar E c = '\\' :: k :: r) := by
  unfold quoteChar WritableChar
  by_cases h1 : c = '"'
  · subst h1; exact .inr (.inl ⟨'"', by simp, by simp, .inl ⟨by decide, by decide, .inl (by decide)⟩⟩)
  rw [if_neg h1]
  by_cases h2 : c = '\\'
  · subst h2; exact .inr (.inl ⟨'\\', by simp, by simp, .inl ⟨by decide, by decide, .inl (by decide)⟩⟩)
  rw [if_neg h2]
  simp only [val_eq, UInt32.lt_iff_toNat_lt]
  have e : c.val.toNat = c.toNat := rfl
  simp only [e, show (7 : UInt32).toNat = 7 from rfl, show (8 : UInt32).toNat = 8 from rfl,
    show (12 : UInt32).toNat = 12 from rfl, show (10 : UInt32).toNat = 10 from rfl,
    show (13 : UInt32).toNat = 13 from rfl, show (9 : UInt32).toNat = 9 from rfl,
    show (11 : UInt32).toNat = 11 from rfl, show (32 : UInt32).toNat = 32 from rfl,
    show (127 : UInt32).toNat = 127 from rfl, show (128 : UInt32).toNat = 128 from rfl,
    show (0x10000 : UInt32).toNat = 0x10000 from rfl]
  by_cases h3 : c.toNat = 7
  · rw [if_pos h3]; exact .inr (.inr (.inr ⟨'a', [], by simp, rfl⟩))
  rw [if_neg h3]
  by_cases h4 : c.toNat = 8
  · rw [if_pos h4]; exact .inr (.inl ⟨'b', by simp, rfl, .inr (by simp [h4])⟩)
  rw [if_neg h4]
  by_cases h5 : c.toNat = 12
  · rw [if_pos h5]; exact .inr (.inl ⟨'f', by simp, rfl, .inr (by simp [h5])⟩)
  rw [if_neg h5]
  by_cases h6 : c.toNat = 10
  · rw [if_pos h6]; exact .inr (.inl ⟨'n', by simp, rfl, .inr (by simp [h6])⟩)
  rw [if_neg h6]
  by_cases h7 : c.toNat = 13
  · rw [if_pos h7]; exact .inr (.inl ⟨'r', by simp, rfl, .inr (by simp [h7])⟩)
  rw [if_neg h7]
  by_cases h8 : c.toNat = 9
  · rw [if_pos h8]; exact .inr (.inl ⟨'t', by simp, rfl, .inr (by simp [h8])⟩)
  rw [if_neg h8]
  by_cases h9 : c.toNat = 11
  · rw [if_pos h9]; exact .inr (.inr (.inr ⟨'v', [], by simp, rfl⟩))
  rw [if_neg h9]
  by_cases h10 : c.toNat < 32 ∨ c.toNat = 127
  · rw [if_pos h10]; exact .inr (.inr (.inr ⟨'x', _, by simp, rfl⟩))
  rw [if_neg h10]
  by_cases h11 : c.toNat < 128
  · rw [if_pos h11]; exact .inl ⟨rfl, h1, h2, by omega, .inl ⟨by omega, by omega, .inl (by omega)⟩⟩
  rw [if_neg h11]
  by_cases h12 : E.isPrint c = true
  · rw [if_pos h12]; exact .inl ⟨rfl, h1, h2, by omega, .inl ⟨by omega, by omega, .inr h12⟩⟩
  rw [if_neg h12]
  by_cases h13 : c.toNat < 0x10000
  · rw [if_pos h13]; exact .inr (.inr (.inl ⟨rfl, .inl ⟨by omega, by omega, .inl h13⟩⟩))
  rw [if_neg h13]
  exact .inr (.inr (.inr ⟨'U', _, by simp, rfl⟩))

/-- A string literal where a quoted text stands is this quoted text, and its characters are writable. -/
theorem strBody_at_quote {x : Str} : ∀ {s y r r' : Str}, StrBody s y →
    s ++ '"' :: r = x.flatMap (quoteChar E) ++ '"' :: r' →
    s = x.flatMap (quoteChar E) ∧ r = r' ∧ ∀ c ∈ x, WritableChar E c := by
  induction x with
  | nil =>
    intro s y r r' h e
    cases h with
    | nil => exact ⟨rfl, by simpa using e, by simp⟩
    | plain h1 h2 h3 h4 => simp only [List.flatMap_nil, List.nil_append, List.cons_append, List.cons.injEq] at e; exact absurd e.1 h1
    | escape h1 h2 => simp at e
    | unicode h1 h2 h3 h4 h5 h6 h7 => simp at e
  | cons c x ih =>
    intro s y r r' h e
    rw [List.flatMap_cons, List.append_assoc] at e
    rcases quoteChar_cases (E := E) c with ⟨q, k1, k2, k3, kw⟩ | ⟨k, hk, q, kw⟩ | ⟨q, kw⟩ | ⟨k, t, hk, q⟩
    · rw [q] at e
      rw [List.flatMap_cons, q]
      cases h with
      | nil => simp only [List.nil_append, List.cons_append, List.cons.injEq] at e; exact absurd e.1.symm k1
      | plain h1 h2 h3 h4 =>
        simp only [List.cons_append, List.nil_append, List.cons.injEq] at e
        obtain ⟨rfl, e⟩ := e
        obtain ⟨rfl, e2, e3⟩ := ih h4 e
        exact ⟨rfl, e2, by simpa using ⟨kw, e3⟩⟩
      | escape h1 h2 => simp only [List.cons_append, List.nil_append, List.cons.injEq] at e; exact absurd e.1.symm k2
      | unicode h1 h2 h3 h4 h5 h6 h7 => simp only [List.cons_append, List.nil_append, List.cons.injEq] at e; exact absurd e.1.symm k2
    · rw [q] at e
      rw [List.flatMap_cons, q]
      cases h with
      | nil => simp at e
      | plain h1 h2 h3 h4 => simp only [List.cons_append, List.nil_append, List.cons.injEq] at e; exact absurd e.1 h2
      | escape h1 h2 =>
        simp only [List.cons_append, List.nil_append, List.cons.injEq, true_and] at e
        obtain ⟨rfl, e⟩ := e
        obtain ⟨rfl, e2, e3⟩ := ih h2 e
        exact ⟨rfl, e2, by simpa using ⟨kw, e3⟩⟩
      | unicode h1 h2 h3 h4 h5 h6 h7 =>
        simp only [List.cons_append, List.nil_append, List.cons.injEq, true_and] at e
        rw [← e.1] at hk
        exact absurd hk (by decide)
    · rw [q, hexDigits_four] at e
      rw [List.flatMap_cons, q, hexDigits_four]
      cases h with
      | nil => simp at e
      | plain h1 h2 h3 h4 => simp only [List.cons_append, List.nil_append, List.cons.injEq] at e; exact absurd e.1 h2
      | escape h1 h2 =>
        simp only [List.cons_append, List.nil_append, List.cons.injEq, true_and] at e
        rw [e.1] at h1
        cases h1
      | unicode h1 h2 h3 h4 h5 h6 h7 =>
        simp only [List.cons_append, List.nil_append, List.cons.injEq, true_and] at e
        obtain ⟨rfl, rfl, rfl, rfl, e⟩ := e
        obtain ⟨rfl, e2, e3⟩ := ih h7 e
        exact ⟨rfl, e2, by simpa using ⟨kw, e3⟩⟩
    · rw [q] at e
      cases h with
      | nil => simp at e
      | plain h1 h2 h3 h4 => simp only [List.cons_append, List.cons.injEq] at e; exact absurd e.1 h2
      | escape h1 h2 =>
        simp only [List.cons_append, List.cons.injEq, true_and] at e
        rw [← e.1] at hk
        cases h1 <;> exact absurd hk (by decide)
      | unicode h1 h2 h3 h4 h5 h6 h7 =>
        simp only [List.cons_append, List.cons.injEq, true_and] at e
        rw [← e.1] at hk
        exact absurd hk (by decide)

/-! ### Regular expressions -/

theorem unescaped_length {s u : Str} (h : Unescaped s u) :
    u.length ≤ s.length ∧ u.count '/' = s.count '/' := by
  induction h with
  | nil => simp
  | slash _ ih => simp only [List.length_cons, List.count_cons]; constructor <;> [omega; simp [ih.2]]
  | other _ _ ih => simp only [List.length_cons, List.count_cons]; exact ⟨by omega, by rw [ih.2]⟩

theorem unescaped_prefix {s u r r' : Str} (h : Unescaped ('/' :: (s ++ ['/'])) u)
    (e : '/' :: (s ++ ['/']) ++ r = u ++ r') : '/' :: (s ++ ['/']) = u := by
  obtain ⟨h1, h2⟩ := unescaped_length h
  obtain ⟨x, hx⟩ : ∃ x, '/' :: (s ++ ['/']) = u ++ x := by
    have : u <+: '/' :: (s ++ ['/']) :=
      List.prefix_of_prefix_length_le ⟨r', e.symm⟩ ⟨r, rfl⟩ h1
    obtain ⟨x, hx⟩ := this
    exact ⟨x, hx.symm⟩
  rcases List.eq_nil_or_concat x with rfl | ⟨x, c, rfl⟩
  · simpa using hx
  · have hc : c = '/' := by
      have := congrArg List.getLast? hx
      rw [← List.cons_append, List.getLast?_concat, List.concat_eq_append, ← List.append_assoc,
        List.getLast?_concat] at this
      exact (Option.some.inj this).symm
    subst hc
    rw [hx, List.count_append, List.concat_eq_append, List.count_append] at h2
    simp at h2

/-! ### Paths -/

/-- What comes after the first segment of a printed path. -/
def fsRest (E : Env) : List Str → Str
  | [] => []
  | x :: g => '.' :: fieldString E (x :: g)

theorem fieldString_rest (x : Str) (g : List Str) : fieldString E (x :: g) = fieldPiece E x ++ fsRest E g := by
  cases g <;> simp [fieldString, fsRest]

/-- What can come after a segment. -/
def AfterPiece (z : Str) : Prop := ∃ c r, z = c :: r ∧ (c = '.' ∨ c = ':' ∨ IsWs c)

theorem AfterPiece.noField {z : Str} (h : AfterPiece z) : NoHead (FieldChar E) z := by
  obtain ⟨c, r, rfl, h⟩ := h
  rw [noHead_cons]
  rcases h with rfl | rfl | rfl | rfl | rfl | rfl <;>
    (unfold FieldChar; rw [goLower_ascii (by decide)]; decide)

theorem fsRest_after (g : List Str) (r : Str) : ∃ c k, fsRest E g ++ ':' :: r = c :: k ∧ (c = '.' ∨ c = ':') := by
  cases g with
  | nil => exact ⟨_, _, rfl, .inr rfl⟩
  | cons x g => exact ⟨_, _, rfl, .inl rfl⟩

theorem needsQuote_mem {x : Str} (h : needsQuote x = false) {c : Char} (hc : c ∈ x) : c ≠ ' ' ∧ c ≠ '.' ∧ c ≠ '"' := by
  unfold needsQuote at h
  rw [List.any_eq_false] at h
  have := h c hc
  simp only [Bool.or_eq_true, beq_iff_eq] at this
  tauto

theorem piece_at {t y x z z' : Str} (hp : Piece E t y) (hz : AfterPiece z)
    (hz' : ∃ c k, z' = c :: k ∧ (c = '.' ∨ c = ':')) (e : t ++ z = fieldPiece E x ++ z') :
    (t = fieldPiece E x ∧ z = z' ∧ (y = x → x ≠ ['*'] → WritableName E x)) ∨
    (y ≠ x ∧ ∃ c k, z = c :: k ∧ c ≠ '.') := by
  obtain ⟨c', k', rfl, hc'⟩ := hz'
  by_cases hq : needsQuote x = true
  · have hf : fieldPiece E x = '"' :: (x.flatMap (quoteChar E) ++ ['"']) := by
      unfold fieldPiece quote; rw [if_pos hq]
    rw [hf] at e ⊢
    cases hp with
    | quoted hb =>
      simp only [List.cons_append, List.append_assoc, List.nil_append, List.cons.injEq, true_and] at e
      obtain ⟨rfl, rfl, hw⟩ := strBody_at_quote hb e
      refine .inl ⟨rfl, rfl, fun _ _ => .inr ⟨?_, hw⟩⟩
      unfold needsQuote at hq
      rw [List.any_eq_true] at hq
      obtain ⟨c, hc, h⟩ := hq
      simp only [Bool.or_eq_true, beq_iff_eq] at h
      exact ⟨c, hc, by tauto⟩
    | bare h1 h2 =>
      obtain ⟨c, s, rfl⟩ := List.exists_cons_of_ne_nil h1
      simp only [List.cons_append, List.cons.injEq] at e
      exact absurd (h2 c (by simp)) (not_nameChar (by simp [e.1]))
    | star => simp at e
  · have hq : needsQuote x = false := by simpa using hq
    have hf : fieldPiece E x = x := by unfold fieldPiece; rw [hq]; rfl
    rw [hf] at e ⊢
    -- the literal ends within the segment
    have cut : '"' ∉ t.head? → t ≠ [] → y = t → (∀ c ∈ t, c ≠ '.' ∧ c ≠ ':') →
        (y = x → x ≠ ['*'] → WritableName E x) →
        (t = x ∧ z = c' :: k' ∧ (y = x → x ≠ ['*'] → WritableName E x)) ∨ (y ≠ x ∧ ∃ c k, z = c :: k ∧ c ≠ '.') := by
      intro _ _ hy ht hw
      rcases List.append_eq_append_iff.1 e with ⟨a, h1, h2⟩ | ⟨a, h1, h2⟩
      · cases a with
        | nil =>
          simp only [List.append_nil, List.nil_append] at h1 h2
          exact .inl ⟨h1.symm, h2, hw⟩
        | cons c a =>
          refine .inr ⟨?_, c, a ++ c' :: k', by simpa using h2, ?_⟩
          · rw [hy, h1]
            intro h
            have := congrArg List.length h
            simp at this
          · exact (needsQuote_mem hq (c := c) (by rw [h1]; simp)).2.1
      · cases a with
        | nil =>
          simp only [List.append_nil, List.nil_append] at h1 h2
          exact .inl ⟨h1, h2.symm, hw⟩
        | cons c a =>
          simp only [List.cons_append, List.cons.injEq] at h2
          have := ht c (by rw [h1]; simp)
          rw [← h2.1] at this
          tauto
    cases hp with
    | quoted hb =>
      exfalso
      cases x with
      | nil =>
        simp only [List.cons_append, List.nil_append, List.cons.injEq] at e
        rw [← e.1] at hc'
        revert hc'; decide
      | cons d x =>
        simp only [List.cons_append, List.cons.injEq] at e
        exact (needsQuote_mem hq (c := d) (by simp)).2.2 e.1.symm
    | bare h1 h2 =>
      refine cut ?_ h1 rfl ?_ ?_
      · intro h
        have : '"' ∈ t := List.mem_of_mem_head? h
        exact not_nameChar (by simp) (h2 _ this)
      · intro c hc
        have := h2 c hc
        constructor
        · rintro rfl; exact not_nameChar (by simp) this
        · rintro rfl; revert this; unfold FieldChar; rw [goLower_ascii (by decide)]; decide
      · rintro rfl _
        exact .inl ⟨h1, h2⟩
    | star => exact cut (by simp) (by simp) rfl (by decide) (fun h1 h2 => absurd h1.symm h2)

theorem path_at {p : Str} {ys : List Str} (h : Path E p ys) : ∀ {g : List Str} {z r' : Str},
    AfterPiece z → (∀ k, z ≠ '.' :: k) → g ≠ [] → p ++ z = fieldString E g ++ ':' :: r' →
    ys.length ≤ g.length ∧ (ys = g → ['*'] ∉ g → z = ':' :: r' ∧ ∀ x ∈ g, WritableName E x) := by
  induction h with
  | one hp =>
    intro g z r' hz hd hg e
    obtain ⟨x, g, rfl⟩ := List.exists_cons_of_ne_nil hg
    refine ⟨by simp, fun h hs => ?_⟩
    simp only [List.cons.injEq] at h
    obtain ⟨h, rfl⟩ := h
    simp only [fieldString] at e
    rcases piece_at hp hz ⟨_, _, rfl, .inr rfl⟩ e with ⟨-, h2, h3⟩ | ⟨h1, -⟩
    · exact ⟨h2, by simpa using h3 h (by simpa [eq_comm] using hs)⟩
    · exact absurd h h1
  | @cons t y s ys hp _ ih =>
    intro g z r' hz hd hg e
    obtain ⟨x, g, rfl⟩ := List.exists_cons_of_ne_nil hg
    rw [fieldString_rest, List.append_assoc, List.append_assoc] at e
    rcases piece_at hp ⟨'.', s ++ z, rfl, .inl rfl⟩ (fsRest_after _ _) e with ⟨h1, h2, h3⟩ | ⟨-, c, k, h1, h2⟩
    · cases g with
      | nil => simp [fsRest] at h2
      | cons x' g =>
        simp only [fsRest, List.cons_append, List.cons.injEq, true_and] at h2
        obtain ⟨k1, k2⟩ := ih hz hd (by simp) h2
        refine ⟨by simpa using k1, fun h hs => ?_⟩
        rw [List.cons.injEq] at h
        rw [List.mem_cons, not_or] at hs
        obtain ⟨k3, k4⟩ := k2 h.2 hs.2
        refine ⟨k3, fun w hw => ?_⟩
        rcases List.mem_cons.1 hw with rfl | hw
        · exact h3 h.1 (Ne.symm hs.1)
        · exact k4 w hw
    · simp only [List.cons.injEq] at h1
      exact absurd h1.1.symm h2

theorem path_firstPiece {p : Str} {ys : List Str} (h : Path E p ys) :
    ∃ t y p' ys', Piece E t y ∧ p = t ++ p' ∧ ys = y :: ys' := by
  cases h with
  | one h => exact ⟨_, _, [], [], h, by simp, rfl⟩
  | cons h _ => exact ⟨_, _, _, _, h, rfl, rfl⟩

theorem piece_firstChar {t y : Str} (h : Piece E t y) : ∃ c u, t = c :: u ∧ c ≠ ':' ∧ c ≠ '.' := by
  cases h with
  | quoted => exact ⟨_, _, rfl, by decide⟩
  | bare h1 h2 =>
    obtain ⟨c, s, rfl⟩ := List.exists_cons_of_ne_nil h1
    refine ⟨c, s, rfl, ?_, ?_⟩
    · rintro rfl
      have := h2 ':' (by simp)
      revert this; unfold FieldChar; rw [goLower_ascii (by decide)]; decide
    · rintro rfl
      exact not_nameChar (by simp) (h2 '.' (by simp))
  | star => exact ⟨_, _, rfl, by decide⟩

theorem withoutStars_full {ys : List Str} {f : List Str} (h : withoutStars ys = f) (hl : ys.length ≤ f.length) : ys = f := by
  have : (ys.filter (· ≠ ['*'])).length = ys.length :=
    le_antisymm (List.length_filter_le _ _) (by unfold withoutStars at h; rw [h]; exact hl)
  rw [← h]
  unfold withoutStars
  exact (List.filter_eq_self.2 (List.length_filter_eq_length_iff.1 this)).symm

theorem not_group_field {c : Char} (h : IsWs c ∨ c = '(') : ¬ FieldChar E c := by
  rcases h with (rfl | rfl | rfl | rfl) | rfl <;> (unfold FieldChar; rw [goLower_ascii (by decide)]; decide)

/-- A path that is read from a printed path (perhaps after white space and opening parentheses) and denotes it, is
the printed path. -/
theorem path_exact {pre p z r' : Str} {ys f : List Str} (hpre : ∀ c ∈ pre, IsWs c ∨ c = '(') (hp : Path E p ys)
    (hz : AfterPiece z) (hd : ∀ k, z ≠ '.' :: k) (hf : withoutStars ys = f) (hs : ['*'] ∉ f)
    (e : pre ++ (p ++ z) = fieldString E f ++ ':' :: r') :
    pre = [] ∧ f ≠ [] ∧ z = ':' :: r' ∧ ∀ x ∈ f, WritableName E x := by
  obtain ⟨t, y, p', ys', h1, h2, h3⟩ := path_firstPiece hp
  obtain ⟨c, u, h4, h5, h6⟩ := piece_firstChar h1
  cases f with
  | nil =>
    exfalso
    simp only [fieldString, List.nil_append] at e
    cases pre with
    | nil =>
      rw [h2, h4] at e
      simp only [List.nil_append, List.cons_append, List.cons.injEq] at e
      exact h5 e.1
    | cons d pre =>
      simp only [List.cons_append, List.cons.injEq] at e
      have := hpre d (by simp)
      rw [e.1] at this
      revert this; decide
  | cons x f =>
    cases pre with
    | nil =>
      obtain ⟨k1, k2⟩ := path_at hp hz hd (by simp) e
      have := withoutStars_full hf k1
      obtain ⟨k3, k4⟩ := k2 this hs
      exact ⟨rfl, by simp, k3, k4⟩
    | cons d pre =>
      exfalso
      have hd0 := hpre d (by simp)
      rw [fieldString_rest, List.append_assoc] at e
      obtain ⟨c', k', hc', hcc⟩ := fsRest_after (E := E) f r'
      by_cases hq : needsQuote x = true
      · unfold fieldPiece quote at e
        rw [if_pos hq] at e
        simp only [List.cons_append, List.cons.injEq] at e
        rw [e.1] at hd0
        revert hd0; decide
      · have hq : needsQuote x = false := by simpa using hq
        rw [show fieldPiece E x = x by unfold fieldPiece; rw [hq]; rfl] at e
        obtain ⟨r, hr, er⟩ : ∃ r, x = (d :: pre) ++ r ∧ p ++ z = r ++ (fsRest E f ++ ':' :: r') := by
          rcases List.append_eq_append_iff.1 e with ⟨a, h1, h2⟩ | ⟨a, h1, h2⟩
          · exact ⟨a, h1, h2⟩
          · cases a with
            | nil => exact ⟨[], by simpa using h1.symm, by simpa using h2.symm⟩
            | cons c a =>
              rw [hc'] at h2
              simp only [List.cons_append, List.cons.injEq] at h2
              have := hpre c (by rw [h1]; simp)
              rw [← h2.1] at this
              rcases hcc with rfl | rfl <;> exact absurd this (by decide)
        have hqr : needsQuote r = false := by
          unfold needsQuote at hq ⊢
          rw [hr, List.any_append, Bool.or_eq_false_iff] at hq
          exact hq.2
        have e2 : p ++ z = fieldString E (r :: f) ++ ':' :: r' := by
          rw [fieldString_rest, show fieldPiece E r = r by unfold fieldPiece; rw [hqr]; rfl, er, List.append_assoc]
        obtain ⟨k1, -⟩ := path_at hp hz hd (by simp) e2
        have hy := withoutStars_full hf (by simpa using k1)
        rw [h3, List.cons.injEq] at hy
        obtain ⟨rfl, -⟩ := hy
        cases h1 with
        | quoted hb =>
          rw [h2] at er
          cases r with
          | nil =>
            rw [hc'] at er
            simp only [List.cons_append, List.nil_append, List.cons.injEq] at er
            rw [← er.1] at hcc
            revert hcc; decide
          | cons b r =>
            simp only [List.cons_append, List.cons.injEq] at er
            exact (needsQuote_mem hqr (c := b) (by simp)).2.2 er.1.symm
        | bare h1 h2 => exact not_group_field hd0 (h2 d (by rw [hr]; simp))
        | star =>
          simp only [List.cons_append, List.cons.injEq] at hr
          rw [← hr.1] at hd0
          revert hd0; decide

/-! ### Values -/

/-- What can come after a literal. -/
def AfterLit (z : Str) : Prop := ∀ c r, z = c :: r → c = ',' ∨ c = ')' ∨ IsWs c

/-- A literal that is read where a value is printed, and denotes it, is the printed value. -/
theorem lit_exact {u r r' : Str} {w v : Val} (h : Lit E [] u w) (hw : unplaced w = unplaced v)
    (hr : AfterLit r) (hr' : AfterLit r') (e : u ++ r = v.toStr E ++ r') : r = r' ∧ WritableVal E v := by
  have hl : ∃ t w, Lit E [] t w ∧ unplaced w = unplaced v := ⟨u, w, h, hw⟩
  cases h with
  | string hb ht =>
    cases v <;> simp only [unplaced, reduceCtorEq, Val.str.injEq] at hw
    subst ht
    simp only [Val.toStr, quote, List.cons_append, List.append_assoc, List.nil_append, List.cons.injEq, true_and] at e
    obtain ⟨rfl, rfl, h3⟩ := strBody_at_quote hb e
    exact ⟨rfl, hl, h3⟩
  | regex a b c d f =>
    cases v <;> simp only [unplaced, reduceCtorEq, Val.regex.injEq] at hw
    obtain ⟨rfl, rfl, -⟩ := hw
    subst b
    have := unescaped_prefix c e
    refine ⟨?_, hl, _, a, this.symm, ?_⟩
    · rw [this] at e
      exact List.append_cancel_left e
    · rw [this] at c
      exact c
  | stamp a =>
    cases v <;> simp only [unplaced, reduceCtorEq, Val.time.injEq] at hw
    obtain ⟨rfl, rfl, rfl, -⟩ := hw
    exact ⟨List.append_cancel_left e, hl, trivial⟩
  | day a =>
    cases v <;> simp only [unplaced, reduceCtorEq, Val.time.injEq] at hw
    obtain ⟨rfl, rfl, rfl, -⟩ := hw
    exact ⟨List.append_cancel_left e, hl, trivial⟩
  | address a =>
    cases v <;> simp only [unplaced, reduceCtorEq, Val.net.injEq] at hw
    obtain ⟨rfl, rfl, -⟩ := hw
    exfalso
    simp only [Val.toStr, List.append_assoc, List.append_cancel_left_eq] at e
    have := hr '/' _ e
    revert this; decide
  | block a b c =>
    cases v <;> simp only [unplaced, reduceCtorEq, Val.net.injEq] at hw
    obtain ⟨rfl, rfl, -⟩ := hw
    exact ⟨List.append_cancel_left e, hl, trivial⟩
  | @float _ m a b q x k1 k2 k3 k4 k5 k6 k7 k8 =>
    cases v <;> simp only [unplaced, reduceCtorEq, Val.float.injEq] at hw
    rename_i f z' p
    obtain ⟨rfl, hz, -⟩ := hw
    simp only [Val.toStr] at e
    have hf := formatFloat_chars z' (toF64_isDouble k8)
    have no : ∀ {z}, AfterLit z → NoHead (fun c => ('0' ≤ c ∧ c ≤ '9') ∨ c = '.' ∨ c = '-') z := by
      intro z hz c s hs
      rcases hz c s hs with rfl | rfl | rfl | rfl | rfl | rfl <;> decide
    have := span_unique e ?_ hf (no hr) (no hr')
    · rw [this] at e k6 k7
      refine ⟨List.append_cancel_left e, hl, fun i hi => ?_⟩
      obtain ⟨m', a', r, q', j1, j2, j3, j4, j5, j6, j7, j8⟩ := formatFloat_reads z' (toF64_isDouble k8)
      obtain rfl := j8.1 ⟨i, by cases hi; rfl⟩
      rw [j5] at k6
      have hm : '.' ∈ m' ++ (a' ++ []) := by rw [k6]; simp
      simp only [List.append_nil, List.mem_append] at hm
      rcases hm with hm | hm
      · rcases j1 with rfl | rfl
        · simp at hm
        · exact absurd hm (by decide)
      · exact absurd (j3 _ hm) (by decide)
    · rw [k6]
      intro c hc
      simp only [List.mem_append, List.mem_cons] at hc
      rcases hc with hc | hc | hc | hc
      · rcases k1 with rfl | rfl
        · simp at hc
        · exact .inr (.inr (by simpa using hc))
      · exact .inl (k3 c hc)
      · exact .inr (.inl hc)
      · exact .inl (k5 c hc)
  | int a b c d e' f g =>
    cases v <;> simp only [unplaced, reduceCtorEq, Val.int.injEq] at hw
    obtain ⟨rfl, rfl, -⟩ := hw
    exact ⟨List.append_cancel_left e, hl, trivial⟩
  | true_ =>
    cases v <;> simp only [unplaced, reduceCtorEq, Val.bool.injEq] at hw
    obtain ⟨rfl, -⟩ := hw
    exact ⟨List.append_cancel_left e, hl, trivial⟩
  | false_ =>
    cases v <;> simp only [unplaced, reduceCtorEq, Val.bool.injEq] at hw
    obtain ⟨rfl, -⟩ := hw
    exact ⟨List.append_cancel_left e, hl, trivial⟩

theorem lit_begin {u : Str} {w : Val} (h : Lit E [] u w) : ∃ c k, u = c :: k ∧ ¬ IsWs c ∧ c ≠ '(' := by
  have dig : ∀ {c : Char}, '0' ≤ c ∧ c ≤ '9' → ¬ IsWs c ∧ c ≠ '(' := by
    intro c hc
    refine ⟨?_, ?_⟩
    · rintro (rfl | rfl | rfl | rfl) <;> exact absurd hc (by decide)
    · rintro rfl; exact absurd hc (by decide)
  have num : ∀ {m a r : Str}, Minus m → a ≠ [] → AllDigits a → ∃ c k, m ++ (a ++ r) = c :: k ∧ ¬ IsWs c ∧ c ≠ '(' := by
    intro m a r hm ha hd
    rcases hm with rfl | rfl
    · obtain ⟨c, a, rfl⟩ := List.exists_cons_of_ne_nil ha
      exact ⟨c, _, rfl, dig (hd c (by simp))⟩
    · exact ⟨'-', _, rfl, by decide, by decide⟩
  have day : ∀ {t : Str} {d}, DateText t d → ∃ c k, t = c :: k ∧ ¬ IsWs c ∧ c ≠ '(' := by
    rintro t d ⟨a, b, c, ha, ha4, -, -, -, -, rfl, -⟩
    obtain ⟨d, a, rfl⟩ := List.exists_cons_of_ne_nil (show a ≠ [] by rintro rfl; cases ha4)
    exact ⟨d, _, rfl, dig (ha d (by simp))⟩
  have addr : ∀ {t : Str} {a : Nat}, AddrText t a → ∃ c k, t = c :: k ∧ ¬ IsWs c ∧ c ≠ '(' := by
    rintro t a ⟨w, x, y, z, -, -, -, -, rfl, -⟩
    obtain ⟨c, k, hk⟩ := List.exists_cons_of_ne_nil (numeral_ne_nil w)
    rw [hk]
    exact ⟨c, _, rfl, dig ((isDig_iff c).1 (numeral_digits w c (by rw [hk]; simp)))⟩
  cases h with
  | string _ ht => exact ⟨_, _, ht, by decide, by decide⟩
  | regex _ ht => exact ⟨_, _, ht, by decide, by decide⟩
  | stamp a =>
    obtain ⟨dt, x, n, ct, secs, ft, ns, zt, off, hd, hv, hn, hc, hf, hz, rfl, -⟩ := a
    obtain ⟨c, k, rfl, h⟩ := day hd
    exact ⟨c, _, rfl, h⟩
  | day a => obtain ⟨x, hx, -⟩ := a; exact day hx
  | address a => exact addr a
  | block a _ ht =>
    obtain ⟨c, k, rfl, h⟩ := addr a
    exact ⟨c, _, ht, h⟩
  | float h1 h2 h3 _ _ h6 => rw [h6]; exact num h1 h2 h3
  | int h1 h2 h3 h4 => rw [h4]; simpa using num (r := []) h1 h2 h3
  | true_ => exact ⟨_, _, rfl, by decide, by decide⟩
  | false_ => exact ⟨_, _, rfl, by decide, by decide⟩

/-- A printed value does not begin with white space, if it is the value of a literal. -/
theorem printed_begin {u : Str} {w v : Val} (h : Lit E [] u w) (hw : unplaced w = unplaced v)
    {z : Str} {c : Char} {k : Str} (hz : NoHead IsWs z) (e : v.toStr E ++ z = c :: k) : ¬ IsWs c := by
  have hb := lit_begin h
  have same : v.toStr E = u → ¬ IsWs c := by
    intro h1
    obtain ⟨d, k', rfl, h2, -⟩ := hb
    rw [h1, List.cons_append, List.cons.injEq] at e
    rw [← e.1]; exact h2
  cases h with
  | string hb ht =>
    cases v <;> simp only [unplaced, reduceCtorEq, Val.str.injEq] at hw
    simp only [Val.toStr, quote, List.cons_append, List.cons.injEq] at e
    rw [← e.1]; decide
  | regex _ b c' _ _ =>
    cases v <;> simp only [unplaced, reduceCtorEq, Val.regex.injEq] at hw
    obtain ⟨rfl, rfl, -⟩ := hw
    subst b
    cases c' with
    | other =>
      simp only [Val.toStr, List.cons_append, List.cons.injEq] at e
      rw [← e.1]; decide
  | stamp a =>
    cases v <;> simp only [unplaced, reduceCtorEq, Val.time.injEq] at hw
    exact same hw.1.symm
  | day a =>
    cases v <;> simp only [unplaced, reduceCtorEq, Val.time.injEq] at hw
    exact same hw.1.symm
  | address a =>
    cases v <;> simp only [unplaced, reduceCtorEq, Val.net.injEq] at hw
    obtain ⟨d, k', rfl, h2, -⟩ := hb
    obtain ⟨rfl, -, -⟩ := hw
    simp only [Val.toStr, List.cons_append, List.cons.injEq] at e
    rw [← e.1]; exact h2
  | block a b c =>
    cases v <;> simp only [unplaced, reduceCtorEq, Val.net.injEq] at hw
    exact same hw.1.symm
  | float _ _ _ _ _ _ _ k8 =>
    cases v with
    | float f z' _ => ?_
    | _ => simp only [unplaced, reduceCtorEq] at hw
    simp only [unplaced, Val.float.injEq] at hw
    obtain ⟨rfl, -, -⟩ := hw
    simp only [Val.toStr] at e
    have hf := formatFloat_chars z' (toF64_isDouble k8)
    intro hc
    cases ht : formatFloat z' (.fin _) with
    | nil =>
      rw [ht] at e
      exact hz c k e hc
    | cons d t =>
      rw [ht, List.cons_append, List.cons.injEq] at e
      have := hf d (by rw [ht]; simp)
      rw [e.1] at this
      rcases hc with rfl | rfl | rfl | rfl <;> exact absurd this (by decide)
  | int =>
    cases v <;> simp only [unplaced, reduceCtorEq, Val.int.injEq] at hw
    exact same hw.2.1.symm
  | true_ =>
    cases v <;> simp only [unplaced, reduceCtorEq, Val.bool.injEq] at hw
    obtain ⟨rfl, -⟩ := hw
    exact same rfl
  | false_ =>
    cases v <;> simp only [unplaced, reduceCtorEq, Val.bool.injEq] at hw
    obtain ⟨rfl, -⟩ := hw
    exact same rfl

theorem ws_cut {w a b : Str} (hw : Ws w) (hb : NoHead IsWs b) (e : w ++ a = b) : w = [] ∧ a = b := by
  cases w with
  | nil => exact ⟨rfl, e⟩
  | cons c w => exact absurd (hw c (by simp)) (hb c _ e.symm)

theorem afterLit_ws {w z : Str} (hw : Ws w) (hz : AfterLit z) : AfterLit (w ++ z) := by
  cases w with
  | nil => exact hz
  | cons c w =>
    intro d r e
    rw [List.cons_append, List.cons.injEq] at e
    rw [← e.1]
    exact .inr (.inr (hw c (by simp)))

theorem laidItems_first {ls : List (Str × Val)} {s : Str} (h : LaidItems E ls s) :
    ∃ u w ls', ls = (u, w) :: ls' ∧ Lit E [] u w := by
  cases h with
  | one h => exact ⟨_, _, _, rfl, h⟩
  | cons h => exact ⟨_, _, _, rfl, h⟩

theorem map_one {α β : Type} {g : α → β} {a : β} {vs : List α} (h : [a] = vs.map g) : ∃ v, vs = [v] ∧ a = g v := by
  cases vs with
  | nil => cases h
  | cons v vs =>
    cases vs with
    | nil => exact ⟨v, rfl, by simpa using h⟩
    | cons => simp at h

theorem two_of_length {α : Type} {vs : List α} (h : 2 ≤ vs.length) : ∃ a b l, vs = a :: b :: l := by
  match vs, h with
  | a :: b :: l, _ => exact ⟨a, b, l, rfl⟩

theorem joinVals_begin {u : Str} {w v : Val} {vs : List Val} {r : Str} (h : Lit E [] u w)
    (hw : unplaced w = unplaced v) :
    NoHead IsWs (joinVals E ",".toList (v :: vs) ++ ')' :: r) := by
  intro c k e
  cases vs with
  | nil => exact printed_begin (z := ')' :: r) h hw (by rw [noHead_cons]; decide) (by simpa [joinVals] using e)
  | cons v' vs =>
    refine printed_begin (z := ',' :: (joinVals E ",".toList (v' :: vs) ++ ')' :: r)) (k := k) h hw ?_ ?_
    · rw [noHead_cons]; decide
    · simpa [joinVals] using e

theorem items_exact {ls : List (Str × Val)} {s : Str} (h : LaidItems E ls s) : ∀ {vs : List Val} {z r' : Str},
    ls.map (fun l => unplaced l.2) = vs.map unplaced → AfterLit z →
    s ++ z = joinVals E ",".toList vs ++ ')' :: r' → ∀ v ∈ vs, WritableVal E v := by
  have close : ∀ r, AfterLit (')' :: r) := by intro r c k e; simp only [List.cons.injEq] at e; simp [← e.1]
  have comma : ∀ r, AfterLit (',' :: r) := by intro r c k e; simp only [List.cons.injEq] at e; simp [← e.1]
  induction h with
  | one hl =>
    intro vs z r' hm hz e
    obtain ⟨v, rfl, hm'⟩ := map_one hm
    · have := (lit_exact hl hm' hz (close r') (by simpa [joinVals] using e)).2
      simpa using this
  | @cons t w ls w1 w2 s hl h1 h2 hs ih =>
    intro vs z r' hm hz e
    obtain ⟨u', w', ls', rfl, hl'⟩ := laidItems_first hs
    obtain ⟨v, v', vs, rfl⟩ := two_of_length (vs := vs) (by
      have := congrArg List.length hm
      simp at this
      omega)
    · simp only [List.map_cons, List.cons.injEq] at hm
      obtain ⟨m1, m2, m3⟩ := hm
      have e1 : t ++ (w1 ++ ',' :: (w2 ++ (s ++ z))) = v.toStr E ++ (',' :: (joinVals E ",".toList (v' :: vs) ++ ')' :: r')) := by
        simpa [joinVals] using e
      obtain ⟨e2, e3⟩ := lit_exact hl m1 (afterLit_ws h1 (comma _)) (comma _) e1
      obtain ⟨rfl, e4⟩ := ws_cut h1 (by rw [noHead_cons]; decide) e2
      simp only [List.cons.injEq, true_and] at e4
      obtain ⟨rfl, e5⟩ := ws_cut h2 (joinVals_begin hl' m2) e4
      have := ih (vs := v' :: vs) (by simp [m2, m3]) hz e5
      intro x hx
      rcases List.mem_cons.1 hx with rfl | hx
      · exact e3
      · exact this x hx

theorem laidValues_begin {ls : List (Str × Val)} {s : Str} (h : LaidValues E ls s) : s ≠ [] ∧ NoHead IsWs s := by
  cases h with
  | one h =>
    obtain ⟨c, k, rfl, h1, -⟩ := lit_begin h
    exact ⟨by simp, by rw [noHead_cons]; exact h1⟩
  | list => exact ⟨by simp, by rw [noHead_cons]; decide⟩

/-- Values that are read from printed values and denote them are the printed ones. -/
theorem values_exact {ls : List (Str × Val)} {s : Str} (h : LaidValues E ls s) {vs : List Val} {w w2 : Str}
    (hw : Ws w) (hw2 : Ws w2) (hm : ls.map (fun l => unplaced l.2) = vs.map unplaced)
    (e : w ++ (s ++ w2) = ' ' :: friendlyVals E vs) :
    ∀ v ∈ vs, WritableVal E v := by
  have none : AfterLit [] := by intro c r e; cases e
  have hb := laidValues_begin h
  have hvs : NoHead IsWs (friendlyVals E vs) := by
    cases h with
    | one hl =>
      obtain ⟨v, rfl, hm'⟩ := map_one hm
      · intro c k e
        exact printed_begin (z := []) hl hm' noHead_nil (by simpa [friendlyVals] using e)
    | list h2 _ hi _ =>
      have := congrArg List.length hm
      simp only [List.length_map] at this
      obtain ⟨v, v', vs, rfl⟩ := two_of_length (vs := vs) (by omega)
      · simp only [friendlyVals]; show NoHead IsWs ('(' :: _); rw [noHead_cons]; decide
  have e1 : s ++ w2 = friendlyVals E vs := by
    cases w with
    | nil =>
      obtain ⟨c, k, rfl⟩ := List.exists_cons_of_ne_nil hb.1
      rw [List.nil_append, List.cons_append, List.cons.injEq] at e
      have := hb.2 c k rfl
      rw [e.1] at this
      exact absurd (by decide) this
    | cons c w =>
      rw [List.cons_append, List.cons.injEq] at e
      exact (ws_cut (fun d hd => hw d (by simp [hd])) hvs e.2).2
  cases h with
  | one hl =>
    obtain ⟨v, rfl, hm'⟩ := map_one hm
    · have := (lit_exact (r := w2) (r' := []) hl hm' (by simpa using afterLit_ws hw2 none) none
        (by simpa [friendlyVals] using e1)).2
      simpa using this
  | @list _ a b t h2 ha hi hb' =>
    have hl := congrArg List.length hm
    simp only [List.length_map] at hl
    obtain ⟨v, v', vs, rfl⟩ := two_of_length (vs := vs) (by omega)
    · have e2 : a ++ (t ++ (b ++ ')' :: w2)) = joinVals E ",".toList (v :: v' :: vs) ++ ')' :: [] := by
        simpa [friendlyVals] using e1
      obtain ⟨u, w', ls', rfl, hl'⟩ := laidItems_first hi
      simp only [List.map_cons, List.cons.injEq] at hm
      obtain ⟨rfl, e3⟩ := ws_cut ha (joinVals_begin hl' hm.1) e2
      refine items_exact hi (by simpa using hm) (afterLit_ws hb' ?_) e3
      intro c k e; simp only [List.cons.injEq] at e; simp [← e.1]

/-! ### Comparisons -/

/-- A comparison as it is laid out, without parentheses around it. -/
def CmpText (E : Env) (op : Op) (f : List Str) (vs : List Val) (t : Str) : Prop :=
  ∃ p xs w1 rest, Path E p xs ∧ Ws w1 ∧ t = p ++ (w1 ++ ':' :: rest) ∧ withoutStars xs = f ∧
    ((vs = []) ∨ ∃ w2 o w3 s ls, rest = w2 ++ (o ++ (w3 ++ s)) ∧ Ws w2 ∧ OpText o op ∧ Ws w3 ∧ LaidValues E ls s ∧
      ls.map (fun l => unplaced l.2) = vs)

theorem laid_expr {l : Level} {c : Cst} {s : Str} (h : Laid E l c s) {op : Op} {f : List Str} {vs : List Val}
    (ht : c.tree = .expr op f vs noPosition) :
    ∃ pre t post, s = pre ++ (t ++ post) ∧ (∀ d ∈ pre, IsWs d ∨ d = '(') ∧ (pre = [] → post = []) ∧ CmpText E op f vs t := by
  induction h with
  | noArgs h1 h2 h3 h4 =>
    simp only [Cst.tree, Node.expr.injEq] at ht
    exact ⟨[], _, [], (List.append_nil _).symm, by simp, by simp, _, _, _, _, h1, h3, rfl, ht.2.1, .inl ht.2.2.1.symm⟩
  | compare h1 h2 h3 h4 h5 h6 =>
    simp only [Cst.tree, Node.expr.injEq] at ht
    obtain ⟨rfl, ht⟩ := ht
    exact ⟨[], _, [], (List.append_nil _).symm, by simp, by simp, _, _, _, _, h1, h4, rfl, ht.1,
      .inr ⟨_, _, _, _, _, rfl, h5, h2, h6, h3, ht.2.1⟩⟩
  | @group c s w1 w2 h1 h2 h3 ih =>
    obtain ⟨pre, t, post, rfl, k1, -, k2⟩ := ih ht
    refine ⟨'(' :: (w1 ++ pre), t, post ++ (w2 ++ [')']), by simp, ?_, by simp, k2⟩
    intro d hd
    simp only [List.mem_cons, List.mem_append] at hd
    rcases hd with rfl | hd | hd
    · exact .inr rfl
    · exact .inl (h2 d hd)
    · exact k1 d hd
  | word => simp [Cst.tree] at ht
  | bang => simp [Cst.tree] at ht
  | and => simp [Cst.tree] at ht
  | or => simp [Cst.tree] at ht
  | cmpNot _ ih => exact ih ht
  | notAnd _ ih => exact ih ht
  | andOr _ ih => exact ih ht

theorem opText_eq {o : Str} {op : Op} (h : OpText o op) :
    o = (if op = .EQ then [] else op.text) ∧ (op = .EQ ∨ (o ≠ [] ∧ NoHead IsWs o)) := by
  cases h <;> refine ⟨rfl, ?_⟩ <;> first | exact .inl rfl | exact .inr ⟨by simp, by rw [noHead_cons]; decide⟩

/-- If the name of a comparison is laid out as the comparison, then names and values are writable. -/
theorem friendly_exact {op : Op} {f : List Str} {vs : List Val} {c : Cst} (hs : ['*'] ∉ f)
    (h : LaidOut E c (friendlyString E op f vs))
    (ht : c.tree = bare (.expr op f vs noPosition)) :
    f ≠ [] ∧ (∀ x ∈ f, WritableName E x) ∧ ∀ v ∈ vs, WritableVal E v := by
  obtain ⟨w1, q, w2, h1, h2, h3, h4⟩ := h
  obtain ⟨pre, t, post, rfl, k1, k2, p, xs, w, rest, p1, p2, rfl, p3, p4⟩ := laid_expr h3 ht
  rw [friendlyString_eq] at h4
  obtain ⟨e1, e2, e3, e4⟩ := path_exact (pre := w1 ++ pre) (z := w ++ ':' :: (rest ++ (post ++ w2)))
    (by
      intro d hd
      rcases List.mem_append.1 hd with hd | hd
      · exact .inl (h1 d hd)
      · exact k1 d hd) p1
    (by
      cases w with
      | nil => exact ⟨_, _, rfl, .inr (.inl rfl)⟩
      | cons d w => exact ⟨_, _, rfl, .inr (.inr (p2 d (by simp)))⟩)
    (by
      intro k e
      cases w with
      | nil => simp at e
      | cons d w =>
        rw [List.cons_append, List.cons.injEq] at e
        have := p2 d (by simp)
        rw [e.1] at this
        exact absurd this (by decide)) p3 hs (by rw [h4]; simp)
  refine ⟨e2, e4, ?_⟩
  rw [List.append_eq_nil_iff] at e1
  have hpost := k2 e1.2
  subst hpost
  obtain ⟨rfl, e5⟩ := ws_cut p2 (by rw [noHead_cons]; decide) e3
  simp only [List.cons.injEq, true_and, List.nil_append] at e5
  rcases p4 with p4 | ⟨a, o, b, s, ls, rfl, q1, q2, q3, q4, q5⟩
  · rw [List.map_eq_nil_iff] at p4
    subst p4
    simp
  · obtain ⟨o1, o2⟩ := opText_eq q2
    rcases o2 with rfl | ⟨o2, o3⟩
    · simp only [if_true] at o1 e5
      subst o1
      refine values_exact (w := a ++ b) q4 ?_ h2 q5 (by simpa using e5)
      intro d hd
      rcases List.mem_append.1 hd with hd | hd
      · exact q1 d hd
      · exact q3 d hd
    · rw [← o1] at e5
      obtain ⟨d, o, rfl⟩ := List.exists_cons_of_ne_nil o2
      have hd := o3 d o rfl
      obtain ⟨rfl, e6⟩ := ws_cut (a := (d :: o) ++ (b ++ (s ++ w2))) (b := (d :: o) ++ ' ' :: friendlyVals E vs) q1
        (by rw [List.cons_append, noHead_cons]; exact hd) (by simpa using e5)
      exact values_exact q4 q3 h2 q5 (List.append_cancel_left e6)

end Aql
