import Verif.Model.GraphLabel
import Verif.Spec.Html
/-!
Reading back the labels written by `labelHtml`.
-/

namespace Aql

open Spec

theorem tokens_text {t : Str} (h : '<' ∉ t) (cur s : Str) :
    htmlTokens false cur (t ++ s) = htmlTokens false (cur ++ t) s := by
  induction t generalizing cur with
  | nil => simp
  | cons c t ih =>
    rw [List.mem_cons, not_or] at h
    rw [List.cons_append, htmlTokens]
    simp only [Bool.false_eq_true, if_false]
    rw [if_neg (Ne.symm h.1), ih h.2]
    simp

theorem tokens_inTag {b : Str} (h : ∀ c ∈ b, c ≠ '<' ∧ c ≠ '>') (cur s : Str) :
    htmlTokens true cur (b ++ '>' :: s) = (htmlTokens false [] s).map (.tag (cur ++ b) :: ·) := by
  induction b generalizing cur with
  | nil => simp [htmlTokens]
  | cons c b ih =>
    have hc := h c (by simp)
    rw [List.cons_append, htmlTokens]
    simp only [if_true]
    rw [if_neg hc.1, if_neg hc.2, ih fun x hx => h x (by simp [hx])]
    simp

theorem tokens_tag {t b : Str} (ht : '<' ∉ t) (hb : ∀ c ∈ b, c ≠ '<' ∧ c ≠ '>') (s : Str) :
    htmlTokens false [] (t ++ '<' :: (b ++ '>' :: s)) =
      (htmlTokens false [] s).map fun r => .text t :: .tag b :: r := by
  rw [tokens_text ht, htmlTokens]
  simp only [Bool.false_eq_true, if_false, if_true, List.nil_append]
  rw [tokens_inTag hb, Option.map_map]
  rfl

theorem decode_plain {s : Str} (h : '&' ∉ s) : htmlDecode s = some s := by
  induction s with
  | nil => rfl
  | cons c s ih =>
    rw [List.mem_cons, not_or] at h
    unfold htmlDecode
    split <;> simp_all [eq_comm]

theorem decode_escape (s : Str) (h : Char.ofNat 0 ∉ s) : htmlDecode (htmlEscape s) = some s := by
  induction s with
  | nil => rfl
  | cons c s ih =>
    rw [List.mem_cons, not_or] at h
    have ih := ih h.2
    unfold htmlEscape
    by_cases h1 : c = '"'
    · subst h1
      show (htmlDecode (htmlEscape s)).map _ = _
      rw [ih]; rfl
    rw [if_neg h1]
    by_cases h2 : c = '\''
    · subst h2
      show (htmlDecode (htmlEscape s)).map _ = _
      rw [ih]; rfl
    rw [if_neg h2]
    by_cases h3 : c = '&'
    · subst h3
      show (htmlDecode (htmlEscape s)).map _ = _
      rw [ih]; rfl
    rw [if_neg h3]
    by_cases h4 : c = '<'
    · subst h4
      show (htmlDecode (htmlEscape s)).map _ = _
      rw [ih]; rfl
    rw [if_neg h4]
    by_cases h5 : c = '>'
    · subst h5
      show (htmlDecode (htmlEscape s)).map _ = _
      rw [ih]; rfl
    rw [if_neg h5, if_neg (Ne.symm h.1)]
    rw [List.singleton_append, htmlDecode]
    · rw [if_neg h3, ih]; rfl
    all_goals (intro s' hs; simp_all)

theorem escape_noTag (s : Str) : '<' ∉ htmlEscape s := by
  induction s with
  | nil => simp [htmlEscape]
  | cons c s ih =>
    unfold htmlEscape
    rw [List.mem_append, not_or]
    refine ⟨?_, ih⟩
    split
    · decide
    split
    · decide
    split
    · decide
    split
    · decide
    split
    · decide
    split
    · decide
    rename_i h4 _ _
    intro h
    rw [List.mem_singleton] at h
    exact h4 h.symm

/-- The cells shown by the rest of a label. -/
def rd (cell : Option Str) (s : Str) : Option (List Str) := (htmlTokens false [] s).bind (htmlCells cell)

/-- A cell followed by others. -/
def consCell : Option Str → Option (List Str) → Option (List Str)
  | some x, some xs => some (x :: xs)
  | _, _ => none

variable {t b s u : Str}

theorem rd_open (ht : '<' ∉ t) (hb : ∀ c ∈ b, c ≠ '<' ∧ c ≠ '>') (h : "TD".toList.isPrefixOf b = true) :
    rd none (t ++ '<' :: (b ++ '>' :: s)) = rd (some []) s := by
  unfold rd
  rw [tokens_tag ht hb]
  cases htmlTokens false [] s with
  | none => rfl
  | some r =>
    simp only [Option.map_some, Option.bind_some, htmlCells]
    rw [if_pos h]

theorem rd_skip (ht : '<' ∉ t) (hb : ∀ c ∈ b, c ≠ '<' ∧ c ≠ '>') (h : "TD".toList.isPrefixOf b = false) :
    rd none (t ++ '<' :: (b ++ '>' :: s)) = rd none s := by
  unfold rd
  rw [tokens_tag ht hb]
  cases htmlTokens false [] s with
  | none => rfl
  | some r =>
    simp only [Option.map_some, Option.bind_some, htmlCells]
    rw [if_neg (by rw [h]; decide)]

theorem rd_close (ht : '<' ∉ t) :
    rd (some u) (t ++ '<' :: ("/TD".toList ++ '>' :: s)) = consCell (htmlDecode (u ++ t)) (rd none s) := by
  unfold rd
  rw [tokens_tag ht (by decide)]
  cases htmlTokens false [] s with
  | none => cases htmlDecode (u ++ t) <;> rfl
  | some r =>
    simp only [Option.map_some, Option.bind_some, htmlCells]
    rw [if_pos trivial]
    cases htmlDecode (u ++ t) <;> cases htmlCells none r <;> rfl

theorem rd_italic (ht : '<' ∉ t) (h : b = "I".toList ∨ b = "/I".toList) :
    rd (some u) (t ++ '<' :: (b ++ '>' :: s)) = rd (some (u ++ t)) s := by
  unfold rd
  rw [tokens_tag ht (by rcases h with rfl | rfl <;> decide)]
  cases htmlTokens false [] s with
  | none => rfl
  | some r =>
    simp only [Option.map_some, Option.bind_some, htmlCells]
    rw [if_neg (by rcases h with rfl | rfl <;> decide), if_pos h]

theorem rd_prop {n v : Str} (hn : Char.ofNat 0 ∉ n) (hv : Char.ofNat 0 ∉ v) :
    rd none (propRow n v ++ s) = consCell (some n) (consCell (some v) (rd none s)) := by
  have e : propRow n v ++ s = "\n".toList ++ '<' :: ("TR".toList ++ '>' :: ("\n\t".toList ++ '<' ::
      ("TD CELLPADDING=\"0\" BORDER=\"1\"".toList ++ '>' :: (htmlEscape n ++ '<' :: ("/TD".toList ++ '>' ::
      ("\n\t".toList ++ '<' :: ("TD CELLPADDING=\"0\" BORDER=\"1\"".toList ++ '>' ::
      (htmlEscape v ++ '<' :: ("/TD".toList ++ '>' :: ("\n".toList ++ '<' :: ("/TR".toList ++ '>' ::
      s))))))))))) := by
    unfold propRow
    simp only [List.append_assoc]
    rfl
  rw [e, rd_skip (by decide) (by decide) (by decide), rd_open (by decide) (by decide) (by decide),
    rd_close (escape_noTag n), rd_open (by decide) (by decide) (by decide), rd_close (escape_noTag v),
    rd_skip (by decide) (by decide) (by decide), List.nil_append, List.nil_append, decode_escape n hn,
    decode_escape v hv]

theorem rd_value {c n v : Str} (hc : ∀ x ∈ c, x ≠ '<' ∧ x ≠ '>') (hn : '<' ∉ n ∧ '&' ∉ n)
    (hv : '<' ∉ v ∧ '&' ∉ v) :
    rd none (valueRow c n v ++ s) = consCell (some n) (consCell (some v) (rd none s)) := by
  have e : valueRow c n v ++ s = "\n".toList ++ '<' :: ("TR".toList ++ '>' :: ("\n\t".toList ++ '<' ::
      (("TD BORDER=\"1\" BGCOLOR=\"".toList ++ c ++ "\"".toList) ++ '>' :: ([] ++ '<' :: ("I".toList ++ '>' ::
      (n ++ '<' :: ("/I".toList ++ '>' :: ([] ++ '<' :: ("/TD".toList ++ '>' ::
      ("\n\t".toList ++ '<' :: ("TD BORDER=\"1\" BGCOLOR=\"#FFFFFF\"".toList ++ '>' ::
      (v ++ '<' :: ("/TD".toList ++ '>' :: ("\n".toList ++ '<' :: ("/TR".toList ++ '>' ::
      s))))))))))))))) := by
    unfold valueRow
    simp only [List.append_assoc]
    rfl
  have hb : ∀ x ∈ "TD BORDER=\"1\" BGCOLOR=\"".toList ++ c ++ "\"".toList, x ≠ '<' ∧ x ≠ '>' := by
    intro x hx
    rw [List.mem_append, List.mem_append] at hx
    rcases hx with (hx | hx) | hx
    · revert x; decide
    · exact hc x hx
    · revert x; decide
  rw [e, rd_skip (by decide) (by decide) (by decide), rd_open (by decide) hb rfl,
    rd_italic (by decide) (.inl rfl), rd_italic hn.1 (.inr rfl), rd_close (by decide),
    rd_open (by decide) (by decide) (by decide), rd_close hv.1,
    rd_skip (by decide) (by decide) (by decide)]
  simp only [List.nil_append, List.append_nil]
  rw [decode_plain hn.2, decode_plain hv.2]

theorem rd_values {vs : List (Str × Str × Str)}
    (h : ∀ v ∈ vs, (∀ x ∈ v.1, x ≠ '<' ∧ x ≠ '>') ∧ ('<' ∉ v.2.1 ∧ '&' ∉ v.2.1) ∧ ('<' ∉ v.2.2 ∧ '&' ∉ v.2.2)) :
    rd none (vs.flatMap (fun v => valueRow v.1 v.2.1 v.2.2) ++ "\n</TABLE>\n".toList) =
      some (vs.flatMap fun v => [v.2.1, v.2.2]) := by
  induction vs with
  | nil => decide
  | cons v vs ih =>
    have hv := h v (by simp)
    rw [List.flatMap_cons, List.append_assoc, rd_value hv.1 hv.2.1 hv.2.2, ih fun x hx => h x (by simp [hx])]
    rfl

theorem rd_label {f n w : Str} {vs : List (Str × Str × Str)} (hf : '<' ∉ f ∧ '&' ∉ f)
    (hn : Char.ofNat 0 ∉ n) (hw : Char.ofNat 0 ∉ w)
    (h : ∀ v ∈ vs, (∀ x ∈ v.1, x ≠ '<' ∧ x ≠ '>') ∧ ('<' ∉ v.2.1 ∧ '&' ∉ v.2.1) ∧ ('<' ∉ v.2.2 ∧ '&' ∉ v.2.2)) :
    shownCells (labelHtml f [(n, w)] vs) = some (f :: n :: w ::
      (if vs = [] then [] else "Values".toList :: vs.flatMap fun v => [v.2.1, v.2.2])) := by
  change rd none _ = _
  have e : labelHtml f [(n, w)] vs = [] ++ '<' ::
      ("TABLE BORDER=\"0\" CELLBORDER=\"1\" CELLSPACING=\"0\" CELLPADDING=\"2\"".toList ++ '>' ::
      ("\n".toList ++ '<' :: ("TR".toList ++ '>' :: ("\n\t".toList ++ '<' ::
      ("TD COLSPAN=\"2\" CELLPADDING=\"8\"".toList ++ '>' :: (f ++ '<' :: ("/TD".toList ++ '>' ::
      ("\n".toList ++ '<' :: ("/TR".toList ++ '>' :: (propRow n w ++
      ((if vs = [] then [] else "\n<TR>\n\t<TD COLSPAN=\"2\">Values</TD>\n</TR>".toList ++
     vs.flatMap (fun v => valueRow v.1 v.2.1 v.2.2)) ++ "\n</TABLE>\n".toList))))))))))) := by
    unfold labelHtml
    simp only [List.append_assoc, List.flatMap_cons, List.flatMap_nil, List.append_nil, List.nil_append]
    rfl
  rw [e, rd_skip (by decide) (by decide) (by decide), rd_skip (by decide) (by decide) (by decide),
    rd_open (by decide) (by decide) (by decide), rd_close hf.1, rd_skip (by decide) (by decide) (by decide),
    rd_prop hn hw, List.nil_append, decode_plain hf.2]
  by_cases hvs : vs = []
  · rw [if_pos hvs, if_pos hvs]
    have : rd none ([] ++ "\n</TABLE>\n".toList) = some [] := by decide
    rw [this]
    rfl
  · rw [if_neg hvs, if_neg hvs]
    have e2 : "\n<TR>\n\t<TD COLSPAN=\"2\">Values</TD>\n</TR>".toList ++
        vs.flatMap (fun v => valueRow v.1 v.2.1 v.2.2) ++ "\n</TABLE>\n".toList =
        "\n".toList ++ '<' :: ("TR".toList ++ '>' :: ("\n\t".toList ++ '<' ::
      ("TD COLSPAN=\"2\"".toList ++ '>' :: ("Values".toList ++ '<' :: ("/TD".toList ++ '>' ::
      ("\n".toList ++ '<' :: ("/TR".toList ++ '>' ::
        (vs.flatMap (fun v => valueRow v.1 v.2.1 v.2.2) ++ "\n</TABLE>\n".toList)))))))) := by
      simp only [List.append_assoc]
      rfl
    rw [e2, rd_skip (by decide) (by decide) (by decide), rd_open (by decide) (by decide) (by decide),
      rd_close (by decide), rd_skip (by decide) (by decide) (by decide), rd_values h]
    rfl

end Aql
