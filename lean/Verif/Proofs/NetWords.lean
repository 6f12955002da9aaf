import Verif.Proofs.Net
/-!
Addresses that stand on their own in a text are found.
-/

namespace Aql

open Spec

namespace Spec

/-- A character that can be part of an address or block. -/
def NetChar (c : Char) : Prop := ('0' ≤ c ∧ c ≤ '9') ∨ c = '.' ∨ c = '/'

/-- The part `w` of the text `pre ++ w ++ post` is not glued to further digits, dots or slashes before,
or digits or slashes after. A dot may follow, as at the end of a sentence. -/
def StandsAlone (pre post : Str) : Prop :=
  (∀ c, pre.getLast? = some c → ¬ NetChar c) ∧
  (∀ c, post.head? = some c → ¬ ('0' ≤ c ∧ c ≤ '9') ∧ c ≠ '/')

end Spec

theorem netShape_chars {m : Str} (h : NetShape m) : ∀ c ∈ m, NetChar c := by
  obtain ⟨a, b, c, d, sfx, ha, hb, hc, hd, hs, rfl⟩ := h
  intro x hx
  have hsfx : ∀ y ∈ sfx, NetChar y := by
    rcases hs with rfl | ⟨e, he, rfl⟩
    · simp
    · intro y hy
      rcases List.mem_cons.1 hy with rfl | hy
      · exact .inr (.inr rfl)
      · exact .inl (he.2.2 y hy)
  simp only [List.mem_append, List.mem_cons] at hx
  rcases hx with h | h | h | h | h | h | h | h
  · exact .inl (ha.2.2 x h)
  · exact .inr (.inl h)
  · exact .inl (hb.2.2 x h)
  · exact .inr (.inl h)
  · exact .inl (hc.2.2 x h)
  · exact .inr (.inl h)
  · exact .inl (hd.2.2 x h)
  · exact hsfx x h

theorem first_dot {a a' r r' : Str} (h : a ++ '.' :: r = a' ++ '.' :: r') (ha : '.' ∉ a) (ha' : '.' ∉ a') :
    a = a' ∧ r = r' := by
  induction a generalizing a' with
  | nil =>
    cases a' with
    | nil => simpa using h
    | cons x a' =>
      simp only [List.nil_append, List.cons_append, List.cons.injEq] at h
      exact absurd h.1 (by rintro rfl; simp at ha')
  | cons y a ih =>
    cases a' with
    | nil =>
      simp only [List.nil_append, List.cons_append, List.cons.injEq] at h
      exact absurd h.1 (by rintro rfl; simp at ha)
    | cons x a' =>
      simp only [List.cons_append, List.cons.injEq] at h
      obtain ⟨rfl, h⟩ := h
      obtain ⟨he, hr⟩ := ih h (by simp_all) (by simp_all)
      exact ⟨by rw [he], hr⟩

theorem digits_noDot {n : Nat} {s : Str} (h : Digits n s) : '.' ∉ s := fun hm => by
  have := h.2.2 _ hm
  revert this
  decide

/-- A network shape is not continued by other characters. -/
theorem netShape_end {w t : Str} (hw : NetShape w) (h : NetShape (w ++ t))
    (ht : ∀ c, t.head? = some c → ¬ ('0' ≤ c ∧ c ≤ '9') ∧ c ≠ '/') : t = [] := by
  obtain ⟨a, b, c, d, sfx, ha, hb, hc, hd, hs, rfl⟩ := hw
  obtain ⟨a', b', c', d', sfx', ha', hb', hc', hd', hs', he⟩ := h
  simp only [List.append_assoc, List.cons_append] at he
  obtain ⟨-, he⟩ := first_dot he (digits_noDot ha) (digits_noDot ha')
  obtain ⟨-, he⟩ := first_dot he (digits_noDot hb) (digits_noDot hb')
  obtain ⟨-, he⟩ := first_dot he (digits_noDot hc) (digits_noDot hc')
  cases t with
  | nil => rfl
  | cons x t =>
    have hx : x ∈ d' ++ sfx' := by rw [← he]; simp
    have ⟨h1, h2⟩ := ht x rfl
    rcases List.mem_append.1 hx with hx | hx
    · exact absurd (hd'.2.2 x hx) h1
    · rcases hs' with rfl | ⟨e, hdig, rfl⟩
      · cases hx
      · rcases List.mem_cons.1 hx with rfl | hx
        · exact absurd rfl h2
        · exact absurd (hdig.2.2 x hx) h1

theorem extracted_word {s : Str} {ms : List Str} (h : Extracted s ms) {pre w post : Str}
    (hs : s = pre ++ w ++ post) (hw : NetShape w) (ha : StandsAlone pre post) : w ∈ ms := by
  induction h generalizing pre with
  | none h => exact absurd hw (h _ _ _ hs)
  | @some pre0 m post0 ms hm hleft hlong hrest ih =>
    have hle := hleft _ _ _ hs hw
    rw [List.append_assoc, List.append_assoc] at hs
    obtain ⟨u, rfl⟩ : ∃ u, pre = pre0 ++ u := by
      rcases List.append_eq_append_iff.1 hs with ⟨u, h, -⟩ | ⟨u, h, -⟩
      · exact ⟨u, h⟩
      · rw [h] at hle ⊢
        rw [List.length_append] at hle
        have : u = [] := List.length_eq_zero_iff.1 (by omega)
        exact ⟨[], by simp [this]⟩
    rw [List.append_assoc, List.append_cancel_left_eq] at hs
    by_cases hu : u = []
    · subst hu
      rw [List.nil_append] at hs
      have hl := hlong _ _ hs hw
      rcases List.append_eq_append_iff.1 hs with ⟨t, h, h'⟩ | ⟨t, h, h'⟩
      · rw [h, List.length_append] at hl
        have : t = [] := List.length_eq_zero_iff.1 (by omega)
        subst this
        rw [List.append_nil] at h
        simp [h]
      · have : t = [] := netShape_end hw (h ▸ hm) (by
          intro c hc
          refine ha.2 c ?_
          rw [h']
          cases t with
          | nil => cases hc
          | cons => exact hc)
        subst this
        rw [List.append_nil] at h
        simp [h]
    · rcases List.append_eq_append_iff.1 hs with ⟨t, h, h'⟩ | ⟨t, h, h'⟩
      · -- the extracted part ends before the word
        subst h
        refine List.mem_cons_of_mem _ (ih (pre := t) (by rw [h', List.append_assoc]) ⟨?_, ha.2⟩)
        intro c hc
        refine ha.1 c ?_
        rw [List.getLast?_append, List.getLast?_append, hc]
        rfl
      · -- it would contain the character before the word
        have hc : ∃ x, u.getLast? = some x ∧ x ∈ u := by
          refine ⟨u.getLast hu, List.getLast?_eq_getLast_of_ne_nil hu, List.getLast_mem hu⟩
        obtain ⟨x, hx, hxm⟩ := hc
        refine absurd (netShape_chars hm x (by rw [h]; simp [hxm])) (ha.1 x ?_)
        rw [List.getLast?_append, hx]
        rfl

theorem digits_numeral {k n : Nat} (hk : n < 10 ^ k) (h1 : 1 ≤ k) : Digits k (numeral n) := by
  refine ⟨?_, (numeral_length_le h1).2 hk, ?_⟩
  · have := numeral_ne_nil n
    exact List.length_pos_iff.2 this
  · intro c hc
    have := numeral_digits n c hc
    simpa [isDig] using this

theorem denotes_shape {w : Str} {T : Nat → Prop} (h : Denotes w T) : NetShape w := by
  have key : ∀ {t : Str} {a : Nat} {sfx : Str}, AddrText t a →
      (sfx = [] ∨ ∃ e, Digits 2 e ∧ sfx = '/' :: e) → NetShape (t ++ sfx) := by
    rintro t a sfx ⟨w, x, y, z, hw, hx, hy, hz, rfl, -⟩ hs
    exact ⟨_, _, _, _, sfx, digits_numeral (n := w) (by omega) (by omega), digits_numeral (n := x) (by omega) (by omega),
      digits_numeral (n := y) (by omega) (by omega), digits_numeral (n := z) (by omega) (by omega), hs, by simp⟩
  rcases h with ⟨a, ha, -⟩ | ⟨t, a, n, ht, hn, rfl, -⟩
  · simpa using key ha (.inl rfl)
  · exact key ht (.inr ⟨_, digits_numeral (n := n) (by omega) (by omega), rfl⟩)

end Aql
