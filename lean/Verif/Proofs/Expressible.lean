import Verif.Spec.Expressible
import Verif.Proofs.Reread
/-!
Which trees queries can denote.
-/

namespace Aql

open Spec

variable {E : Env}

/-- A way of writing any character between quotes. -/
def writeChar (c : Char) : Str :=
  if c = '"' then ['\\', '"'] else if c = '\\' then ['\\', '\\']
  else if c.toNat < 32 then '\\' :: 'u' :: hexDigits 4 c.toNat else [c]

theorem strBody_writeChar (c : Char) {s x : Str} (hb : StrBody s x) :
    StrBody (writeChar c ++ s) (c :: x) := by
  unfold writeChar
  by_cases h1 : c = '"'
  · rw [if_pos h1, h1]; exact .escape .quote hb
  rw [if_neg h1]
  by_cases h2 : c = '\\'
  · rw [if_pos h2, h2]; exact .escape .backslash hb
  rw [if_neg h2]
  by_cases h3 : c.toNat < 32
  · rw [if_pos h3]; exact strBody_hex (by omega) hb
  · rw [if_neg h3]; exact .plain h1 h2 (by omega) hb

theorem strBody_any (x : Str) : StrBody (x.flatMap writeChar) x := by
  induction x with
  | nil => exact .nil
  | cons c x ih => rw [List.flatMap_cons]; exact strBody_writeChar c ih

theorem any_piece (x : Str) : ∃ t, Piece E t x := ⟨_, .quoted (strBody_any x)⟩

theorem any_path {f : List Str} (hf : f ≠ []) : ∃ t, Path E t f := by
  induction f with
  | nil => exact absurd rfl hf
  | cons x f ih =>
    obtain ⟨t, ht⟩ := any_piece (E := E) x
    cases f with
    | nil => exact ⟨t, .one ht⟩
    | cons y f =>
      obtain ⟨s, hs⟩ := ih (by simp)
      exact ⟨_, .cons ht hs⟩

theorem path_without (f : List Str) (h : ['*'] ∉ f) : ∃ t xs, Path E t xs ∧ withoutStars xs = f := by
  by_cases hf : f = []
  · subst hf; exact ⟨_, [['*']], .one .star, by decide⟩
  · obtain ⟨t, ht⟩ := any_path (E := E) hf
    exact ⟨t, f, ht, List.filter_eq_self.2 fun x hx => by
      simp only [ne_eq, decide_not, Bool.not_eq_eq_eq_not, Bool.not_true, decide_eq_false_iff_not]
      rintro rfl; exact h hx⟩

theorem items_any {vs : List Val} (hne : vs ≠ []) (h : ∀ v ∈ vs, ∃ t w, Lit E [] t w ∧ unplaced w = v) :
    ∃ ls s, LaidItems E ls s ∧ ls.map (fun l => unplaced l.2) = vs := by
  induction vs with
  | nil => exact absurd rfl hne
  | cons v vs ih =>
    obtain ⟨t, w, h1, h2⟩ := h v (by simp)
    cases vs with
    | nil => exact ⟨[(t, w)], t, .one h1, by simp [h2]⟩
    | cons v' vs =>
      obtain ⟨ls, s, h3, h4⟩ := ih (by simp) fun u hu => h u (by simp [hu])
      exact ⟨(t, w) :: ls, _, .cons (w1 := []) (w2 := []) h1 (by decide) (by decide) h3,
        by rw [List.map_cons, h4, h2]⟩

theorem values_any {vs : List Val} (hne : vs ≠ []) (h : ∀ v ∈ vs, ∃ t w, Lit E [] t w ∧ unplaced w = v) :
    ∃ ls s, LaidValues E ls s ∧ ls.map (fun l => unplaced l.2) = vs := by
  match vs, hne with
  | [v], _ =>
    obtain ⟨t, w, h1, h2⟩ := h v (by simp)
    exact ⟨[(t, w)], t, .one h1, by simp [h2]⟩
  | v :: v' :: vs, _ =>
    obtain ⟨ls, s, h1, h2⟩ := items_any (by simp) h
    have hl := congrArg List.length h2
    simp only [List.length_map, List.length_cons] at hl
    exact ⟨ls, _, .list (w1 := []) (w2 := []) (by omega) (by decide) h1 (by decide), h2⟩

theorem op_any {op : Op} (h : op ≠ .EXS ∧ op ≠ .NUL) : ∃ o, OpText o op := ⟨_, opText_friendly h⟩

theorem laid_any {n : Node} (h : Expressible E n) : ∃ c s, Laid E .cmp c s ∧ c.tree = n := by
  have hw : Ws [] := by decide
  have hs : Space [' '] := by decide
  induction n with
  | and l r ihl ihr =>
    obtain ⟨c, s, h1, h2⟩ := ihl h.1
    obtain ⟨d, t, h3, h4⟩ := ihr h.2
    exact ⟨_, _, .group (.andOr (.and (.cmpNot h1) (.notAnd (.cmpNot h3)) hs hs)) hw hw,
      by simp [Cst.tree, h2, h4]⟩
  | or l r ihl ihr =>
    obtain ⟨c, s, h1, h2⟩ := ihl h.1
    obtain ⟨d, t, h3, h4⟩ := ihr h.2
    exact ⟨_, _, .group (.or (.notAnd (.cmpNot h1)) (.andOr (.notAnd (.cmpNot h3))) hs hs) hw hw,
      by simp [Cst.tree, h2, h4]⟩
  | not n ih =>
    obtain ⟨c, s, h1, h2⟩ := ih h
    exact ⟨_, _, .group (.andOr (.notAnd (.bang h1 hw))) hw hw, by simp [Cst.tree, h2]⟩
  | subdoc f n ih => exact h.elim
  | expr op f vs p =>
    obtain ⟨rfl, h1, h2, h3⟩ := h
    obtain ⟨t, xs, h4, rfl⟩ := path_without (E := E) f h1
    by_cases ho : op = .EXS ∨ op = .NUL
    · rw [h2.2 ho]
      rcases ho with rfl | rfl
      · exact ⟨_, _, .noArgs h4 .exists_ hw hw, rfl⟩
      · exact ⟨_, _, .noArgs h4 .null hw hw, rfl⟩
    · obtain ⟨ls, s, h5, h6⟩ := values_any (fun e => ho (h2.1 e)) h3
      obtain ⟨o, h7⟩ := op_any (op := op) (by tauto)
      exact ⟨_, _, .compare h4 h7 h5 hw hw hw, by simp [Cst.tree, h6]⟩

theorem laidItems_lits {ls : List (Str × Val)} {s : Str} (h : LaidItems E ls s) :
    ∀ l ∈ ls, Lit E [] l.1 l.2 := by
  induction h with
  | one h => simpa using h
  | cons h _ _ _ ih =>
    intro l hl
    rcases List.mem_cons.1 hl with rfl | hl
    · exact h
    · exact ih l hl

theorem laidValues_lits {ls : List (Str × Val)} {s : Str} (h : LaidValues E ls s) :
    ls ≠ [] ∧ ∀ l ∈ ls, Lit E [] l.1 l.2 := by
  cases h with
  | one h => exact ⟨by simp, by simpa using h⟩
  | list h1 _ h2 _ => exact ⟨by rintro rfl; simp at h1, laidItems_lits h2⟩

theorem withoutStars_not_mem (xs : List Str) : ['*'] ∉ withoutStars xs := by
  simp [withoutStars]

theorem laid_expressible {L : Level} {c : Cst} {s : Str} (h : Laid E L c s) : Expressible E c.tree := by
  induction h with
  | noArgs h1 h2 =>
    refine ⟨rfl, withoutStars_not_mem _, ?_, by simp⟩
    cases h2 <;> simp
  | compare h1 h2 h3 =>
    obtain ⟨h4, h5⟩ := laidValues_lits h3
    refine ⟨rfl, withoutStars_not_mem _, ?_, ?_⟩
    · rw [List.map_eq_nil_iff]
      cases h2 <;> simp [h4]
    · intro v hv
      obtain ⟨l, hl, rfl⟩ := List.mem_map.1 hv
      exact ⟨_, _, h5 l hl, rfl⟩
  | group _ _ _ ih => exact ih
  | word _ _ ih => exact ih
  | bang _ _ ih => exact ih
  | and _ _ _ _ ih1 ih2 => exact ⟨ih1, ih2⟩
  | or _ _ _ _ ih1 ih2 => exact ⟨ih1, ih2⟩
  | cmpNot _ ih => exact ih
  | notAnd _ ih => exact ih
  | andOr _ ih => exact ih

end Aql
