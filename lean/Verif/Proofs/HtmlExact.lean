import Verif.Proofs.Html
/-!
Counting the characters shown by a label: markup inside a cell, and character references, always make
the cells show fewer characters than were written.
-/

namespace Aql

open Spec

/-- Number of characters shown. -/
def shownTotal (cells : List Str) : Nat := (cells.map List.length).sum

theorem shownTotal_cons (x : Str) (xs : List Str) : shownTotal (x :: xs) = x.length + shownTotal xs := by
  simp [shownTotal]

theorem shownTotal_append (xs ys : List Str) : shownTotal (xs ++ ys) = shownTotal xs + shownTotal ys := by
  simp [shownTotal]

theorem decode_shorter {s x : Str} (h : htmlDecode s = some x) :
    x.length ≤ s.length ∧ ('&' ∈ s → x.length < s.length) := by
  induction s using htmlDecode.induct generalizing x with
  | case1 => cases h; simp
  | case2 s ih | case3 s ih | case4 s ih | case5 s ih | case6 s ih =>
    rw [htmlDecode] at h
    obtain ⟨y, hy, rfl⟩ := Option.map_eq_some_iff.1 h
    have := (ih hy).1
    simp only [List.length_cons]
    exact ⟨by omega, fun _ => by omega⟩
  | case7 s h1 h2 h3 h4 h5 =>
    rw [htmlDecode] at h
    · simp at h
    all_goals assumption
  | case8 c s h1 h2 h3 h4 h5 h6 ih =>
    rw [htmlDecode] at h
    · rw [if_neg h6] at h
      obtain ⟨y, hy, rfl⟩ := Option.map_eq_some_iff.1 h
      have := ih hy
      simp only [List.length_cons, List.mem_cons]
      refine ⟨by omega, ?_⟩
      rintro (h | h)
      · exact absurd h.symm h6
      · have := this.2 h; omega
    all_goals assumption

theorem tokens_stuck (t1 cur r : Str) : htmlTokens true cur (t1 ++ '<' :: r) = none ∨
    ∃ b t2, t1 = b ++ '>' :: t2 ∧ ∀ c ∈ b, c ≠ '<' ∧ c ≠ '>' := by
  induction t1 generalizing cur with
  | nil => left; simp [htmlTokens]
  | cons c t ih =>
    by_cases h1 : c = '<'
    · left; subst h1; simp [htmlTokens]
    · by_cases h2 : c = '>'
      · right; subst h2; exact ⟨[], t, rfl, by simp⟩
      · rw [List.cons_append, htmlTokens]
        simp only [if_true]
        rw [if_neg h1, if_neg h2]
        rcases ih (cur ++ [c]) with h | ⟨b, t2, rfl, hb⟩
        · exact .inl h
        · refine .inr ⟨c :: b, t2, rfl, ?_⟩
          intro x hx
          rcases List.mem_cons.1 hx with rfl | hx
          · exact ⟨h1, h2⟩
          · exact hb x hx

theorem rd_other {t b s u : Str} (ht : '<' ∉ t) (hb : ∀ c ∈ b, c ≠ '<' ∧ c ≠ '>') (h1 : b ≠ "/TD".toList)
    (h2 : ¬ (b = "I".toList ∨ b = "/I".toList)) : rd (some u) (t ++ '<' :: (b ++ '>' :: s)) = none := by
  unfold rd
  rw [tokens_tag ht hb]
  cases htmlTokens false [] s with
  | none => rfl
  | some r =>
    simp only [Option.map_some, Option.bind_some, htmlCells]
    rw [if_neg h1, if_neg h2]

/-- The text of one cell, whatever it contains: the cells it turns into show at most as many characters,
and fewer if there is markup or a reference; reading goes on behind it as it should. -/
theorem rd_piece (n : Nat) : ∀ t : Str, t.length ≤ n → ∀ s,
    (∀ u cells, rd (some u) (t ++ '<' :: ("/TD".toList ++ '>' :: s)) = some cells →
      ∃ ex rest, cells = ex ++ rest ∧ rd none s = some rest ∧ shownTotal ex ≤ u.length + t.length ∧
        (('<' ∈ t ∨ '&' ∈ u ++ t) → shownTotal ex < u.length + t.length)) ∧
    (∀ cells, rd none (t ++ '<' :: ("/TD".toList ++ '>' :: s)) = some cells →
      ∃ ex rest, cells = ex ++ rest ∧ rd none s = some rest ∧ shownTotal ex ≤ t.length) := by
  induction n with
  | zero =>
    intro t ht s
    have : t = [] := List.length_eq_zero_iff.1 (by omega)
    subst this
    constructor
    · intro u cells h
      rw [rd_close (by simp)] at h
      rw [List.append_nil] at h ⊢
      cases hd : htmlDecode u with
      | none => rw [hd] at h; cases h
      | some x =>
        cases hr : rd none s with
        | none => rw [hd, hr] at h; cases h
        | some r =>
          rw [hd, hr] at h
          cases h
          obtain ⟨h1, h2⟩ := decode_shorter hd
          refine ⟨[x], r, rfl, rfl, by simpa [shownTotal] using h1, ?_⟩
          rintro (h | h)
          · cases h
          · simpa [shownTotal] using h2 h
    · intro cells h
      rw [rd_skip (by simp) (by decide) (by decide)] at h
      exact ⟨[], cells, rfl, h, by simp [shownTotal]⟩
  | succ n ih =>
    intro t ht s
    by_cases hlt : '<' ∈ t
    · obtain ⟨t0, t1, rfl, h0⟩ := List.eq_append_cons_of_mem hlt
      have hstuck := tokens_stuck t1 [] ("/TD".toList ++ '>' :: s)
      rcases hstuck with hst | ⟨b, t2, rfl, hb⟩
      · have hno : ∀ c, rd c (t0 ++ '<' :: t1 ++ '<' :: ("/TD".toList ++ '>' :: s)) = none := by
          intro c
          unfold rd
          rw [List.append_assoc, tokens_text h0, List.cons_append, htmlTokens]
          simp only [Bool.false_eq_true, if_false, if_true]
          rw [hst]; rfl
        constructor
        · intro u cells h
          rw [hno] at h; cases h
        · intro cells h
          rw [hno] at h; cases h
      · have hl2 : t2.length ≤ n := by
          simp only [List.length_append, List.length_cons] at ht; omega
        obtain ⟨i1, i2⟩ := ih t2 hl2 s
        have e : t0 ++ '<' :: (b ++ '>' :: t2) ++ '<' :: ("/TD".toList ++ '>' :: s) =
            t0 ++ '<' :: (b ++ '>' :: (t2 ++ '<' :: ("/TD".toList ++ '>' :: s))) := by simp
        rw [e]
        have hlen : (t0 ++ '<' :: (b ++ '>' :: t2)).length = t0.length + b.length + t2.length + 2 := by
          simp only [List.length_append, List.length_cons]; omega
        rw [hlen]
        constructor
        · intro u cells h
          by_cases hb1 : b = "/TD".toList
          · subst hb1
            rw [rd_close h0] at h
            cases hd : htmlDecode (u ++ t0) with
            | none => rw [hd] at h; cases h
            | some x =>
              rw [hd] at h
              cases hr : rd none (t2 ++ '<' :: ("/TD".toList ++ '>' :: s)) with
              | none => rw [hr] at h; cases h
              | some r =>
                rw [hr] at h
                cases h
                obtain ⟨ex, rest, rfl, hrest, hle⟩ := i2 r hr
                have h1 := (decode_shorter hd).1
                rw [List.length_append] at h1
                refine ⟨x :: ex, rest, rfl, hrest, ?_, fun _ => ?_⟩ <;> rw [shownTotal_cons] <;> omega
          · by_cases hb2 : b = "I".toList ∨ b = "/I".toList
            · rw [rd_italic h0 hb2] at h
              obtain ⟨ex, rest, rfl, hrest, hle, -⟩ := i1 _ _ h
              rw [List.length_append] at hle
              exact ⟨ex, rest, rfl, hrest, by omega, fun _ => by omega⟩
            · rw [rd_other h0 hb hb1 hb2] at h; cases h
        · intro cells h
          by_cases hb1 : "TD".toList.isPrefixOf b = true
          · rw [rd_open h0 hb hb1] at h
            obtain ⟨ex, rest, rfl, hrest, hle, -⟩ := i1 _ _ h
            simp only [List.length_nil] at hle
            exact ⟨ex, rest, rfl, hrest, by omega⟩
          · rw [rd_skip h0 hb (Bool.eq_false_iff.2 hb1)] at h
            obtain ⟨ex, rest, rfl, hrest, hle⟩ := i2 _ h
            exact ⟨ex, rest, rfl, hrest, by omega⟩
    · constructor
      · intro u cells h
        rw [rd_close hlt] at h
        cases hd : htmlDecode (u ++ t) with
        | none => rw [hd] at h; cases h
        | some x =>
          cases hr : rd none s with
          | none => rw [hd, hr] at h; cases h
          | some r =>
            rw [hd, hr] at h
            cases h
            obtain ⟨h1, h2⟩ := decode_shorter hd
            rw [List.length_append] at h1 h2
            refine ⟨[x], r, rfl, rfl, by simpa [shownTotal] using h1, ?_⟩
            rintro (h | h)
            · exact absurd h hlt
            · simpa [shownTotal] using h2 h
      · intro cells h
        rw [rd_skip hlt (by decide) (by decide)] at h
        exact ⟨[], cells, rfl, h, by simp [shownTotal]⟩

/-- The characters that have a meaning in HTML. -/
def Marked (s : Str) : Prop := '<' ∈ s ∨ '&' ∈ s

theorem rd_cell {t s : Str} {cells : List Str}
    (h : rd (some []) (t ++ '<' :: ("/TD".toList ++ '>' :: s)) = some cells) :
    ∃ ex rest, cells = ex ++ rest ∧ rd none s = some rest ∧ shownTotal ex ≤ t.length ∧
      (Marked t → shownTotal ex < t.length) := by
  obtain ⟨ex, rest, h1, h2, h3, h4⟩ := (rd_piece t.length t (Nat.le_refl _) s).1 [] cells h
  simp only [List.length_nil, Nat.zero_add, List.nil_append] at h3 h4
  exact ⟨ex, rest, h1, h2, h3, h4⟩

theorem consCell_some {x : Str} {o : Option (List Str)} {cells : List Str}
    (h : consCell (some x) o = some cells) : ∃ r, o = some r ∧ cells = x :: r := by
  cases o with
  | none => cases h
  | some r => cases h; exact ⟨r, rfl, rfl⟩

theorem rd_value_any {c n v s : Str} (hc : ∀ x ∈ c, x ≠ '<' ∧ x ≠ '>') (hn : '<' ∉ n ∧ '&' ∉ n)
    {cells : List Str} (h : rd none (valueRow c n v ++ s) = some cells) :
    ∃ ex rest, cells = ex ++ rest ∧ rd none s = some rest ∧ shownTotal ex ≤ n.length + v.length ∧
      (Marked v → shownTotal ex < n.length + v.length) := by
  have e : valueRow c n v ++ s = "\n".toList ++ '<' :: ("TR".toList ++ '>' :: ("\n\t".toList ++ '<' ::
      (("TD BORDER=\"1\" BGCOLOR=\"".toList ++ c ++ "\"".toList) ++ '>' :: ([] ++ '<' :: ("I".toList ++ '>' ::
      (n ++ '<' :: ("/I".toList ++ '>' :: ([] ++ '<' :: ("/TD".toList ++ '>' ::
      ("\n\t".toList ++ '<' :: ("TD BORDER=\"1\" BGCOLOR=\"#FFFFFF\"".toList ++ '>' ::
      (v ++ '<' :: ("/TD".toList ++ '>' :: ("\n".toList ++ '<' :: ("/TR".toList ++ '>' ::
      s))))))))))))))) := by
    unfold valueRow
    simp only [List.append_assoc]
    rfl
  have hb : ∀ x ∈ "TD BORDER=\"1\" BGCOLOR=\"".toList ++ c ++ "\"".toList, x ≠ '<' ∧ x ≠ '>' := by
    intro x hx
    rw [List.mem_append, List.mem_append] at hx
    rcases hx with (hx | hx) | hx
    · revert x; decide
    · exact hc x hx
    · revert x; decide
  rw [e, rd_skip (by decide) (by decide) (by decide), rd_open (by decide) hb rfl,
    rd_italic (by decide) (.inl rfl), rd_italic hn.1 (.inr rfl), rd_close (by decide),
    rd_open (by decide) (by decide) (by decide)] at h
  simp only [List.nil_append, List.append_nil] at h
  rw [decode_plain hn.2] at h
  obtain ⟨r, hr, rfl⟩ := consCell_some h
  obtain ⟨ex, rest, rfl, h2, h3, h4⟩ := rd_cell hr
  rw [rd_skip (by decide) (by decide) (by decide)] at h2
  refine ⟨n :: ex, rest, rfl, h2, ?_, fun hm => ?_⟩
  · rw [shownTotal_cons]; omega
  · have := h4 hm; rw [shownTotal_cons]; omega

theorem rd_values_any {vs : List (Str × Str × Str)}
    (h : ∀ v ∈ vs, (∀ x ∈ v.1, x ≠ '<' ∧ x ≠ '>') ∧ ('<' ∉ v.2.1 ∧ '&' ∉ v.2.1)) {cells : List Str}
    (hr : rd none (vs.flatMap (fun v => valueRow v.1 v.2.1 v.2.2) ++ "\n</TABLE>\n".toList) = some cells) :
    shownTotal cells ≤ shownTotal (vs.flatMap fun v => [v.2.1, v.2.2]) ∧
    ((∃ v ∈ vs, Marked v.2.2) → shownTotal cells < shownTotal (vs.flatMap fun v => [v.2.1, v.2.2])) := by
  induction vs generalizing cells with
  | nil =>
    have : rd none ([] ++ "\n</TABLE>\n".toList) = some [] := by decide
    rw [List.flatMap_nil, this] at hr
    cases hr
    simp
  | cons v vs ih =>
    have hv := h v (by simp)
    rw [List.flatMap_cons, List.append_assoc] at hr
    obtain ⟨ex, rest, rfl, h2, h3, h4⟩ := rd_value_any hv.1 hv.2 hr
    obtain ⟨i1, i2⟩ := ih (fun x hx => h x (by simp [hx])) h2
    rw [List.flatMap_cons, shownTotal_append, shownTotal_append]
    have e : shownTotal [v.2.1, v.2.2] = v.2.1.length + v.2.2.length := by simp [shownTotal]
    rw [e]
    refine ⟨by omega, ?_⟩
    rintro ⟨x, hx, hm⟩
    rcases List.mem_cons.1 hx with rfl | hx
    · have := h4 hm; omega
    · have := i2 ⟨x, hx, hm⟩; omega

/-- The whole label. -/
theorem rd_label_any {f n w : Str} {vs : List (Str × Str × Str)} (hn : Char.ofNat 0 ∉ n)
    (hw : Char.ofNat 0 ∉ w)
    (h : ∀ v ∈ vs, (∀ x ∈ v.1, x ≠ '<' ∧ x ≠ '>') ∧ ('<' ∉ v.2.1 ∧ '&' ∉ v.2.1)) {cells : List Str}
    (hr : shownCells (labelHtml f [(n, w)] vs) = some cells) (hm : Marked f ∨ ∃ v ∈ vs, Marked v.2.2) :
    shownTotal cells < shownTotal (f :: n :: w ::
      (if vs = [] then [] else "Values".toList :: vs.flatMap fun v => [v.2.1, v.2.2])) := by
  change rd none _ = _ at hr
  have e : labelHtml f [(n, w)] vs = [] ++ '<' ::
      ("TABLE BORDER=\"0\" CELLBORDER=\"1\" CELLSPACING=\"0\" CELLPADDING=\"2\"".toList ++ '>' ::
      ("\n".toList ++ '<' :: ("TR".toList ++ '>' :: ("\n\t".toList ++ '<' ::
      ("TD COLSPAN=\"2\" CELLPADDING=\"8\"".toList ++ '>' :: (f ++ '<' :: ("/TD".toList ++ '>' ::
      ("\n".toList ++ '<' :: ("/TR".toList ++ '>' :: (propRow n w ++
      ((if vs = [] then [] else "\n<TR>\n\t<TD COLSPAN=\"2\">Values</TD>\n</TR>".toList ++
     vs.flatMap (fun v => valueRow v.1 v.2.1 v.2.2)) ++ "\n</TABLE>\n".toList))))))))))) := by
    unfold labelHtml
    simp only [List.append_assoc, List.flatMap_cons, List.flatMap_nil, List.append_nil, List.nil_append]
    rfl
  rw [e, rd_skip (by decide) (by decide) (by decide), rd_skip (by decide) (by decide) (by decide),
    rd_open (by decide) (by decide) (by decide)] at hr
  obtain ⟨ex, rest, rfl, h2, h3, h4⟩ := rd_cell hr
  rw [rd_skip (by decide) (by decide) (by decide), rd_prop hn hw] at h2
  obtain ⟨r1, h5, rfl⟩ := consCell_some h2
  obtain ⟨r2, h6, rfl⟩ := consCell_some h5
  clear h2 h5
  have h2 := h6
  have key : shownTotal r2 ≤ shownTotal
      (if vs = [] then [] else "Values".toList :: vs.flatMap fun v => [v.2.1, v.2.2]) ∧
      ((∃ v ∈ vs, Marked v.2.2) → shownTotal r2 < shownTotal
      (if vs = [] then [] else "Values".toList :: vs.flatMap fun v => [v.2.1, v.2.2])) := by
    by_cases hvs : vs = []
    · rw [if_pos hvs] at h2 ⊢
      have : rd none ([] ++ "\n</TABLE>\n".toList) = some [] := by decide
      rw [this] at h2
      cases h2
      subst hvs
      simp
    · rw [if_neg hvs] at h2 ⊢
      have e2 : "\n<TR>\n\t<TD COLSPAN=\"2\">Values</TD>\n</TR>".toList ++
          vs.flatMap (fun v => valueRow v.1 v.2.1 v.2.2) ++ "\n</TABLE>\n".toList =
          "\n".toList ++ '<' :: ("TR".toList ++ '>' :: ("\n\t".toList ++ '<' ::
        ("TD COLSPAN=\"2\"".toList ++ '>' :: ("Values".toList ++ '<' :: ("/TD".toList ++ '>' ::
        ("\n".toList ++ '<' :: ("/TR".toList ++ '>' ::
          (vs.flatMap (fun v => valueRow v.1 v.2.1 v.2.2) ++ "\n</TABLE>\n".toList)))))))) := by
        simp only [List.append_assoc]
        rfl
      rw [e2, rd_skip (by decide) (by decide) (by decide), rd_open (by decide) (by decide) (by decide),
        rd_close (by decide), rd_skip (by decide) (by decide) (by decide)] at h2
      have hd : htmlDecode ([] ++ "Values".toList) = some "Values".toList := by decide
      rw [hd] at h2
      obtain ⟨r3, h7, rfl⟩ := consCell_some h2
      obtain ⟨i1, i2⟩ := rd_values_any h h7
      rw [shownTotal_cons, shownTotal_cons]
      exact ⟨by omega, fun hh => by have := i2 hh; omega⟩
  rw [shownTotal_append, shownTotal_cons, shownTotal_cons, shownTotal_cons, shownTotal_cons, shownTotal_cons]
  rcases hm with hm | hm
  · have := h4 hm; omega
  · have := key.2 hm; omega

end Aql
