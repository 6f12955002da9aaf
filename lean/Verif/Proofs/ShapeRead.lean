import Verif.Proofs.OpensRead
import Verif.Proofs.WantClause
/-!
Nothing can follow a misshapen time or network.
-/

namespace Aql

open Spec

variable {E : Env} {q s a b x y w : Str}

/-- The text has the shape of a time or of a network. -/
def Shaped (E : Env) (s : Str) : Prop := StampShape E s ∨ DateShape s ∨ NetShape s

/-- The characters that may follow a literal. -/
def Behind (c : Char) : Prop := c = ')' ∨ c = ',' ∨ IsWs c

instance (c : Char) : Decidable (Behind c) := by unfold Behind; infer_instance

theorem behind_cases {c : Char} (h : Behind c) : c = ')' ∨ c = ',' ∨ c = ' ' ∨ c = '\n' ∨ c = '\t' ∨ c = '\r' := by
  rcases h with h | h | h
  · exact .inl h
  · exact .inr (.inl h)
  · rcases h with h | h | h | h <;> tauto

theorem behind_notDig {c : Char} (h : Behind c) : ¬ Dig c := by
  rcases behind_cases h with rfl | rfl | rfl | rfl | rfl | rfl <;> decide

theorem behind_lower {c d : Char} (h : Behind c) (hd : d = 't' ∨ d = 'z') : goLower E c ≠ d := by
  intro e
  rcases behind_cases h with rfl | rfl | rfl | rfl | rfl | rfl <;> rcases hd with rfl | rfl <;>
    exact goLower_char (by decide) e (by decide)

theorem dateShape_mem {c : Char} (h : DateShape s) (hc : c ∈ s) : Dig c ∨ c = '-' := by
  obtain ⟨a, b, d, h1, -, h2, -, h3, -, rfl⟩ := h
  simp only [List.mem_append, List.mem_cons] at hc
  rcases hc with hc | hc | hc | hc | hc
  · exact .inl (h1 c hc)
  · exact .inr hc
  · exact .inl (h2 c hc)
  · exact .inr hc
  · exact .inl (h3 c hc)

theorem netShape_mem {c : Char} (h : NetShape s) (hc : c ∈ s) : Dig c ∨ c = '.' ∨ c = '/' := by
  obtain ⟨a, b, d, e, f, h1, h2, h3, h4, h5, rfl⟩ := h
  have hf : c ∈ f → Dig c ∨ c = '.' ∨ c = '/' := by
    rcases h5 with rfl | ⟨u, hu, rfl⟩
    · intro h; cases h
    · intro h
      rcases List.mem_cons.1 h with h | h
      · exact .inr (.inr h)
      · exact .inl (hu.2.2 c h)
  simp only [List.mem_append, List.mem_cons] at hc
  rcases hc with hc | hc | hc | hc | hc | hc | hc | hc
  · exact .inl (h1.2.2 c hc)
  · exact .inr (.inl hc)
  · exact .inl (h2.2.2 c hc)
  · exact .inr (.inl hc)
  · exact .inl (h3.2.2 c hc)
  · exact .inr (.inl hc)
  · exact .inl (h4.2.2 c hc)
  · exact hf hc

theorem zoneShape_mem {c : Char} (h : ZoneShape E s) (hc : c ∈ s) : Dig c ∨ goLower E c = 'z' ∨ c = '+' ∨ c = '-' ∨ c = ':' := by
  rcases h with ⟨d, hd, rfl⟩ | ⟨g, h, m, hg, h1, -, h2, -, rfl⟩
  · rw [List.mem_singleton] at hc
    subst hc
    exact .inr (.inl hd)
  · simp only [List.mem_append, List.mem_cons] at hc
    rcases hc with rfl | hc | hc | hc
    · tauto
    · exact .inl (h1 c hc)
    · tauto
    · exact .inl (h2 c hc)

theorem shape_digits {n : Nat} (h : AllDigits a) (hn : a.length = n + 1) : ∃ c t, a = c :: t ∧ Dig c := by
  cases a with
  | nil => simp at hn
  | cons c t => exact ⟨c, t, rfl, h c (by simp)⟩

/-- A character that may follow a literal occurs in a shape only as the space behind a date. -/
theorem shaped_behind {c : Char} (h : Shaped E (a ++ c :: b)) (hc : Behind c) : c = ' ' ∧ DateShape a ∧ ∃ d u, b = d :: u ∧ Dig d := by
  have date : ∀ {s}, DateShape s → c ∉ s := by
    intro s hs hm
    rcases dateShape_mem hs hm with h | rfl
    · exact behind_notDig hc h
    · revert hc; decide
  rcases h with h | h | h
  · obtain ⟨d, c0, h, m, sec, f, z, hd, hc0, h1, h2, h3, -, h4, -, hf, hz, e⟩ := h
    have rest : c ∉ h ++ ':' :: (m ++ ':' :: (sec ++ (f ++ z))) := by
      intro hm
      have nd := behind_notDig hc
      simp only [List.mem_append, List.mem_cons] at hm
      rcases hm with hm | rfl | hm | rfl | hm | hm | hm
      · exact nd (h1 c hm)
      · revert hc; decide
      · exact nd (h3 c hm)
      · revert hc; decide
      · exact nd (h4 c hm)
      · rcases hf with rfl | ⟨ds, -, hds, rfl⟩
        · cases hm
        · rcases List.mem_cons.1 hm with rfl | hm
          · revert hc; decide
          · exact nd (hds c hm)
      · rcases zoneShape_mem hz hm with h | h | rfl | rfl | rfl
        · exact nd h
        · exact behind_lower hc (.inr rfl) h
        all_goals revert hc; decide
    obtain ⟨k, t, rfl, hk⟩ := shape_digits (n := 1) h1 h2
    rcases List.append_eq_append_iff.1 e with ⟨u, rfl, e'⟩ | ⟨u, rfl, e'⟩
    · cases u with
      | nil =>
        simp only [List.nil_append, List.cons.injEq] at e'
        obtain ⟨rfl, rfl⟩ := e'
        refine ⟨?_, by simpa using hd, _, _, rfl, hk⟩
        rcases hc0 with h | h
        · exact (behind_lower hc (.inl rfl) h).elim
        · exact h
      | cons c1 u =>
        simp only [List.cons_append, List.cons.injEq] at e'
        obtain ⟨rfl, -⟩ := e'
        exact (date hd (by simp)).elim
    · cases u with
      | nil =>
        simp only [List.nil_append, List.cons.injEq] at e'
        obtain ⟨rfl, rfl⟩ := e'
        refine ⟨?_, by simpa using hd, _, _, rfl, hk⟩
        rcases hc0 with h | h
        · exact (behind_lower hc (.inl rfl) h).elim
        · exact h
      | cons c1 u =>
        simp only [List.cons_append, List.cons.injEq] at e'
        obtain ⟨rfl, e'⟩ := e'
        refine (rest ?_).elim
        simp only [List.cons_append]
        rw [e']
        simp
  · exact (date h (by simp)).elim
  · exfalso
    rcases netShape_mem (c := c) h (by simp) with h | rfl | rfl
    · exact behind_notDig hc h
    · revert hc; decide
    · revert hc; decide

theorem shaped_head (h : Shaped E s) : ∃ c t, s = c :: t ∧ Dig c := by
  have date : ∀ {s}, DateShape s → ∃ c t, s = c :: t ∧ Dig c := by
    rintro s ⟨a, b, c, h1, h2, -, -, -, -, rfl⟩
    obtain ⟨c, t, rfl, hc⟩ := shape_digits (n := 3) h1 h2
    exact ⟨c, _, rfl, hc⟩
  rcases h with h | h | h
  · obtain ⟨d, c, h, m, sec, f, z, hd, -, -, -, -, -, -, -, -, -, rfl⟩ := h
    obtain ⟨c, t, rfl, hc⟩ := date hd
    exact ⟨c, _, rfl, hc⟩
  · exact date h
  · obtain ⟨a, b, d, e, f, ⟨h1, -, h2⟩, -, -, -, -, rfl⟩ := h
    cases a with
    | nil => simp at h1
    | cons c t => exact ⟨c, _, rfl, h2 c (by simp)⟩

theorem day_of {v : Val} (hd : DateShape a) (h : Lit E q a v) : ∃ i, DayText a i := by
  obtain ⟨x, y, z, h1, h2, h3, h4, h5, h6, rfl⟩ := hd
  obtain ⟨i, hi, -⟩ := lit_date (x := ⟨digitsValue x, digitsValue y, digitsValue z⟩) ⟨x, y, z, h1, h2, h3, h4, h5, h6, rfl, rfl, rfl, rfl⟩ h
  exact ⟨i, hi⟩

theorem flit_head {c : Char} (h : FLit (c :: b)) : Behind c ∧ (IsWs c → NoHead Dig b) := by
  rcases h with h | ⟨c', t, e, h⟩
  · cases h
  · cases e
    rcases h with rfl | rfl | ⟨h1, h2⟩
    · exact ⟨.inl rfl, fun h => absurd h (by decide)⟩
    · exact ⟨.inr (.inl rfl), fun h => absurd h (by decide)⟩
    · exact ⟨.inr (.inr h1), fun _ => h2⟩

/-- A misshapen text is the beginning of no query. -/
theorem misshapen_end {p : Str} (h : Misshapen E p) : ¬ Beginning E p := by
  obtain ⟨q, x, y, rfl, hd, hs, hl, hday⟩ := h
  rintro ⟨t, n, hQ⟩
  cases x with
  | nil => exact hl _ _ lit_one
  | cons c x =>
    obtain ⟨c', _, e, hc⟩ := shaped_head (show Shaped E _ from hs)
    cases e
    rw [List.append_assoc] at hQ
    obtain ⟨a, b, v, e, ha, hb⟩ := due_lit hd hc hQ
    rcases List.append_eq_append_iff.1 (show (c :: x) ++ t = a ++ b from e) with ⟨u, rfl, e'⟩ | ⟨u, e1, rfl⟩
    · exact hl _ _ ha
    · cases u with
      | nil => rw [e1, List.append_nil] at hl; exact hl [] v (by simpa using ha)
      | cons d u =>
        rw [e1] at hs hday
        obtain ⟨h1, h2⟩ := flit_head hb
        obtain ⟨rfl, hda, k, r, hk, hkd⟩ := shaped_behind (a := a) (c := d) (b := u ++ y) (by simpa [Shaped] using hs) h1
        cases u with
        | nil =>
          obtain ⟨i, hi⟩ := day_of hda ha
          exact hday a i rfl hi
        | cons k' u =>
          cases hk
          exact h2 (.inl rfl) _ _ rfl hkd

/-! ### Expectations -/

theorem met_one {T : Terminal} {P : Char → Prop} (h : readWant w = some T) (hP : ∀ t, T.Begins E t ↔ ∃ c u, t = c :: u ∧ P c) (t : Str) :
    Met E w t ↔ ∃ c u, t = c :: u ∧ P c := by
  constructor
  · rintro (⟨e, -⟩ | ⟨T', hT, hb⟩)
    · exact (not_eof h e).elim
    · rw [h] at hT
      cases hT
      exact (hP t).1 hb
  · intro ht
    exact .inr ⟨T, h, (hP t).2 ht⟩

theorem begins_char {k : Char} (t : Str) : (Terminal.lit [k] false).Begins E t ↔ ∃ c u, t = c :: u ∧ c = k := by
  constructor
  · rintro ⟨a, b, rfl, h⟩
    simp only [Bool.false_eq_true, if_false] at h
    subst h
    exact ⟨k, b, rfl, rfl⟩
  · rintro ⟨c, u, rfl, rfl⟩
    exact ⟨[c], u, rfl, by simp⟩

theorem begins_fold {k : Char} (t : Str) : (Terminal.lit [k] true).Begins E t ↔ ∃ c u, t = c :: u ∧ goLower E c = goLower E k := by
  constructor
  · rintro ⟨a, b, rfl, h⟩
    simp only [if_true, List.map_cons, List.map_nil] at h
    obtain ⟨c, rfl⟩ : ∃ c, a = [c] := by
      have := congrArg List.length h
      simp only [List.length_map, List.length_cons, List.length_nil] at this
      exact List.length_eq_one_iff.1 this
    simp only [List.map_cons, List.map_nil, List.cons.injEq, and_true] at h
    exact ⟨c, b, rfl, h⟩
  · rintro ⟨c, u, rfl, h⟩
    exact ⟨[c], u, rfl, by simp [h]⟩

theorem dig_lower {c d : Char} (h : Dig c) (hd : d = 't' ∨ d = 'z') : goLower E c ≠ d := by
  intro e
  have h9 : c.toNat ≤ 57 := h.2
  rw [goLower_ascii (by omega)] at e
  have h0 : 48 ≤ c.toNat := h.1
  unfold asciiLower at e
  split at e
  · rename_i h'
    have : 65 ≤ c.toNat := h'.1
    omega
  · subst e
    revert h
    rcases hd with rfl | rfl <;> decide

/-- An expectation within a shape is one of a character. -/
theorem sign_met (h : ShapeSign w) : ∃ P : Char → Prop, (∀ t, Met E w t ↔ ∃ c u, t = c :: u ∧ P c) ∧
    (∀ c, P c → Behind c → w = "\" \"".toList ∧ c = ' ') ∧ ∀ c, P c → Dig c → ∀ c', P c' → Dig c' := by
  have char : ∀ {w k}, readWant w = some (.lit [k] false) → ¬ Dig k → (Behind k → w = "\" \"".toList ∧ k = ' ') →
      ∃ P : Char → Prop, (∀ t, Met E w t ↔ ∃ c u, t = c :: u ∧ P c) ∧
      (∀ c, P c → Behind c → w = "\" \"".toList ∧ c = ' ') ∧ ∀ c, P c → Dig c → ∀ c', P c' → Dig c' := by
    intro w k h hd hb
    refine ⟨(· = k), met_one h begins_char, ?_, ?_⟩
    · rintro c rfl; exact hb
    · rintro c rfl h; exact (hd h).elim
  have fold : ∀ {w k d}, readWant w = some (.lit [k] true) → goLower E k = d → (d = 't' ∨ d = 'z') →
      ∃ P : Char → Prop, (∀ t, Met E w t ↔ ∃ c u, t = c :: u ∧ P c) ∧
      (∀ c, P c → Behind c → w = "\" \"".toList ∧ c = ' ') ∧ ∀ c, P c → Dig c → ∀ c', P c' → Dig c' := by
    intro w k d h hk hd
    refine ⟨(goLower E · = goLower E k), met_one h begins_fold, ?_, ?_⟩
    · intro c hc hb; exact (behind_lower hb hd (hc.trans hk)).elim
    · intro c hc hb; exact (dig_lower hb hd (hc.trans hk)).elim
  unfold ShapeSign at h
  simp only [List.mem_cons, List.not_mem_nil, or_false] at h
  rcases h with rfl | rfl | rfl | rfl | rfl | rfl | rfl | rfl | rfl
  · refine ⟨Dig, met_one read_digit fun t => ?_, fun c hc hb => (behind_notDig hb hc).elim, fun _ _ _ _ h => h⟩
    rw [cls_begins]
    exact exists_congr fun c => exists_congr fun u => and_congr_right fun _ => cls_dig
  · exact char read_minus (by decide) (by decide)
  · exact char read_colon (by decide) (by decide)
  · exact char read_point (by decide) (by decide)
  · exact char read_slash (by decide) (by decide)
  · exact char (k := '+') (by decide +kernel) (by decide) (by decide)
  · exact fold (k := 'T') (by decide +kernel) (by rw [goLower_ascii (by decide)]; decide) (.inl rfl)
  · exact fold (k := 'Z') (by decide +kernel) (by rw [goLower_ascii (by decide)]; decide) (.inr rfl)
  · exact char (k := ' ') (by decide +kernel) (by decide) (fun _ => ⟨rfl, rfl⟩)

/-- What misleads is never met in a query. -/
theorem misled_end {p t : Str} {n : Node} (h : Misled E p w) (hm : Met E w t) : ¬ Query E (p ++ t) n := by
  obtain ⟨q, x, y, rfl, hd, hs, hw, hy, hl, hday⟩ := h
  intro hQ
  have hs : Shaped E (x ++ y) := hs
  obtain ⟨P, hP, hB, hD⟩ := sign_met (E := E) hw
  obtain ⟨c1, u1, rfl, h1⟩ := (hP t).1 hm
  obtain ⟨c2, u2, rfl, h2⟩ := (hP y).1 hy
  rw [List.append_assoc] at hQ
  obtain ⟨c, z, e, hc⟩ : ∃ c z, x ++ c1 :: u1 = c :: z ∧ Dig c := by
    obtain ⟨c, z, e, hc⟩ := shaped_head hs
    cases x with
    | nil =>
      cases e
      exact ⟨c1, u1, rfl, hD _ h2 hc _ h1⟩
    | cons d x =>
      cases e
      exact ⟨c, _, rfl, hc⟩
  rw [e] at hQ
  obtain ⟨a, b, v, e', ha, hb⟩ := due_lit hd hc hQ
  rw [← e] at e'
  have same : ∀ {v}, Lit E q x v → FLit (c1 :: u1) → False := by
    intro v hx hf
    obtain ⟨hb, -⟩ := flit_head hf
    obtain ⟨rfl, rfl⟩ := hB c1 h1 hb
    have : c2 = ' ' := by
      have := (hP [c2]).2 ⟨c2, [], rfl, h2⟩
      rw [met_one (w := "\" \"".toList) (T := .lit [' '] false) (by decide +kernel) begins_char] at this
      obtain ⟨_, _, e, rfl⟩ := this
      cases e
      rfl
    subst this
    obtain ⟨-, hda, -⟩ := shaped_behind hs (.inr (.inr (.inl rfl)))
    obtain ⟨i, hi⟩ := day_of hda hx
    exact hday rfl i hi
  rcases List.append_eq_append_iff.1 e' with ⟨u, rfl, e1⟩ | ⟨u, e1, e2⟩
  · cases u with
    | nil =>
      simp only [List.nil_append] at e1
      subst e1
      exact same (by simpa using ha) hb
    | cons d u =>
      cases e1
      exact hl _ _ ((hP _).2 ⟨_, _, rfl, h1⟩) ha
  · cases u with
    | nil =>
      simp only [List.append_nil] at e1
      simp only [List.nil_append] at e2
      subst e1 e2
      exact same ha hb
    | cons d u =>
      subst e1 e2
      obtain ⟨k1, k2⟩ := flit_head hb
      obtain ⟨rfl, hda, k, r, hk, hkd⟩ := shaped_behind (a := a) (c := d) (b := u ++ c2 :: u2) (by simpa using hs) k1
      cases u with
      | nil =>
        cases hk
        exact k2 (.inl rfl) c1 _ rfl (hD _ h2 hkd _ h1)
      | cons k' u =>
        cases hk
        exact k2 (.inl rfl) _ _ rfl hkd

end Aql
