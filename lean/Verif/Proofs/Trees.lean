import Verif.Proofs.Language
import Verif.Spec.Query
import Verif.Spec.Walk
/-!
Facts about the trees of queries.
-/

namespace Aql

open Spec

variable {E : Env} {pre a : Str}

theorem addr_lt {t : Str} {n : Nat} (h : AddrText t n) : n < 2 ^ 32 := by
  obtain ⟨w, x, y, z, h1, h2, h3, h4, -, rfl⟩ := h
  omega

theorem lit_ok {v : Val} (h : Lit E pre a v) : LitOk v := by
  cases h with
  | address h => exact ⟨addr_lt h, Nat.le_refl _⟩
  | block h hn _ => exact ⟨addr_lt h, hn⟩
  | _ => trivial

theorem lit_pos {v : Val} (h : Lit E pre a v) : v.pos = posAt pre a := by
  cases h <;> rfl

theorem items_lits {vs : List Val} (h : Items E pre a vs) : ∀ v ∈ vs, ∃ p t post,
    pre ++ a = p ++ (t ++ post) ∧ pre.length ≤ p.length ∧ Lit E p t v := by
  induction h with
  | @one pre t v h =>
    intro x hx
    cases List.mem_singleton.1 hx
    exact ⟨pre, t, [], by simp, Nat.le_refl _, h⟩
  | @cons pre t v w1 w2 s vs h _ _ _ ih =>
    intro x hx
    rcases List.mem_cons.1 hx with rfl | hx
    · exact ⟨pre, t, _, rfl, Nat.le_refl _, h⟩
    · obtain ⟨p, u, post, e, hl, k⟩ := ih x hx
      refine ⟨p, u, post, ?_, ?_, k⟩
      · rw [← e]; simp
      · rw [List.length_append] at hl; omega

theorem values_lits {vs : List Val} (h : Values E pre a vs) : ∀ v ∈ vs, ∃ p t post,
    pre ++ a = p ++ (t ++ post) ∧ pre.length ≤ p.length ∧ Lit E p t v := by
  cases h with
  | one h =>
    intro x hx
    cases List.mem_singleton.1 hx
    exact ⟨pre, a, [], by simp, Nat.le_refl _, h⟩
  | @list w1 w2 s vs _ h _ _ =>
    intro x hx
    obtain ⟨p, u, post, e, hl, k⟩ := items_lits h x hx
    refine ⟨p, u, post ++ (w2 ++ [')']), ?_, by rw [List.length_append] at hl; omega, k⟩
    have : pre ++ '(' :: (w1 ++ (s ++ (w2 ++ [')']))) = (pre ++ '(' :: w1 ++ s) ++ (w2 ++ [')']) := by simp
    rw [this, e]; simp

/-- Every comparison of the tree comes from a comparison in the text, every value from a literal in
the text of that comparison. -/
theorem text_comparisons {L : Level} {n : Node} (h : Text E L pre a n) : ∀ e ∈ comparisons n, ∃ p t post,
    pre ++ a = p ++ (t ++ post) ∧ Text E .cmp p t e ∧ ∃ op f vs, e = .expr op f vs (posAt p t) ∧
      ∀ v ∈ vs, ∃ q u post', p ++ t = q ++ (u ++ post') ∧ p.length < q.length ∧ Lit E q u v := by
  have mono : ∀ {e : Node} {s s' r : Str}, s' = s ++ r → (∃ p t post, s = p ++ (t ++ post) ∧ Text E .cmp p t e ∧
      ∃ op f vs, e = .expr op f vs (posAt p t) ∧ ∀ v ∈ vs, ∃ q u post', p ++ t = q ++ (u ++ post') ∧ p.length < q.length ∧ Lit E q u v) →
      ∃ p t post, s' = p ++ (t ++ post) ∧ Text E .cmp p t e ∧
      ∃ op f vs, e = .expr op f vs (posAt p t) ∧ ∀ v ∈ vs, ∃ q u post', p ++ t = q ++ (u ++ post') ∧ p.length < q.length ∧ Lit E q u v := by
    rintro e s s' r rfl ⟨p, t, post, rfl, h⟩
    exact ⟨p, t, post ++ r, by simp, h⟩
  induction h with
  | @group pre w1 s w2 n h1 h2 h3 ih =>
    intro e he
    exact mono (r := w2 ++ [')']) (by simp) (ih e he)
  | @noArgs pre p xs w1 w2 o op t h1 h2 h3 h4 h5 =>
    intro e he
    cases List.mem_singleton.1 he
    refine ⟨pre, t, [], by simp, .noArgs h1 h2 h3 h4 h5, _, _, _, rfl, ?_⟩
    intro v hv; cases hv
  | @compare pre p xs w1 w2 o op w3 s vs t h1 h2 h3 h4 h5 h6 h7 =>
    intro e he
    cases List.mem_singleton.1 he
    refine ⟨pre, t, [], by simp, .compare h1 h2 h3 h4 h5 h6 h7, _, _, _, rfl, ?_⟩
    intro v hv
    obtain ⟨q, u, post, e, hl, k⟩ := values_lits h6 v hv
    refine ⟨q, u, post, ?_, ?_, k⟩
    · rw [← e, h7]; simp
    · simp only [List.length_append, List.length_cons] at hl; omega
  | notCmp _ ih => exact ih
  | @not pre k s n _ _ ih =>
    intro e he
    have := ih e he
    rwa [List.append_assoc] at this
  | andNot _ ih => exact ih
  | @and pre a l w1 w2 b r _ _ _ _ ih1 ih2 =>
    intro e he
    rcases List.mem_append.1 he with he | he
    · exact mono (r := w1 ++ ("AND".toList ++ (w2 ++ b))) (by simp) (ih1 e he)
    · exact mono (r := []) (by simp) (ih2 e he)
  | orAnd _ ih => exact ih
  | @or pre a l w1 w2 b r _ _ _ _ ih1 ih2 =>
    intro e he
    rcases List.mem_append.1 he with he | he
    · exact mono (r := w1 ++ ("OR".toList ++ (w2 ++ b))) (by simp) (ih1 e he)
    · exact mono (r := []) (by simp) (ih2 e he)

theorem litsIn_of {P : Val → Prop} {n : Node} (h : ∀ e ∈ comparisons n, ∀ op f vs p, e = .expr op f vs p → ∀ v ∈ vs, P v) :
    LitsIn P n := by
  induction n with
  | and l r ih1 ih2 =>
    exact ⟨ih1 fun e he => h e (List.mem_append_left _ he), ih2 fun e he => h e (List.mem_append_right _ he)⟩
  | or l r ih1 ih2 =>
    exact ⟨ih1 fun e he => h e (List.mem_append_left _ he), ih2 fun e he => h e (List.mem_append_right _ he)⟩
  | not n ih => exact ih h
  | subdoc f n ih => exact ih h
  | expr op f vs p => exact h _ (List.mem_singleton_self _) op f vs p rfl

theorem text_noSubdoc {L : Level} {n : Node} (h : Text E L pre a n) : NoSubdoc n := by
  induction h with
  | group _ _ _ ih => exact ih
  | noArgs => trivial
  | compare => trivial
  | notCmp _ ih => exact ih
  | not _ _ ih => exact ih
  | andNot _ ih => exact ih
  | and _ _ _ _ ih1 ih2 => exact ⟨ih1, ih2⟩
  | orAnd _ ih => exact ih
  | or _ _ _ _ ih1 ih2 => exact ⟨ih1, ih2⟩

theorem text_litOk {L : Level} {n : Node} (h : Text E L pre a n) : LitsIn LitOk n := by
  refine litsIn_of ?_
  intro e he op f vs p hp v hv
  obtain ⟨_, _, _, _, _, op', f', vs', he', hvs⟩ := text_comparisons h e he
  rw [hp] at he'
  cases he'
  obtain ⟨_, _, _, _, _, hl⟩ := hvs v hv
  exact lit_ok hl

end Aql
