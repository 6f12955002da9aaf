import Verif.Model.Fmt
import Mathlib.Tactic.Linarith
/-!
Properties C51 - C53: printing of messages.
-/

namespace Aql

namespace Spec

/-- Length of a text in bytes, as UTF-8. -/
def byteLen (s : Str) : Nat := (s.map Char.utf8Size).sum

/-- The position the parser gives to the token `tok` that follows the text `pre`: the offset counts
bytes, the length counts characters. -/
def Marks (p : Pos) (pre tok : Str) : Prop := p.offset = byteLen pre ∧ p.len = tok.length

/-- Only ASCII characters. -/
def Ascii (s : Str) : Prop := ∀ c ∈ s, c.val < 128

/-- The printed line for the query: what stands before the token, the token, and what follows. Cut
off parts are replaced by three dots. -/
inductive Cut (pre post : Str) : Str → Str → Prop
  | whole : Cut pre post pre post
  | left (a x : Str) (h : pre = a ++ x) (ha : a ≠ []) : Cut pre post ("...".toList ++ x) post
  | right (y b : Str) (h : post = y ++ b) (hb : b ≠ []) : Cut pre post pre (y ++ "...".toList)
  | both (a x y b : Str) (h : pre = a ++ x) (ha : a ≠ []) (h' : post = y ++ b) (hb : b ≠ []) :
      Cut pre post ("...".toList ++ x) (y ++ "...".toList)

end Spec

open Spec

theorem byteLen_ascii {s : Str} (h : Ascii s) : byteLen s = s.length := by
  induction s with
  | nil => rfl
  | cons c s ih =>
    have hc : c.utf8Size = 1 := by
      rw [Char.utf8Size_eq_one_iff]
      have := h c (by simp)
      rw [UInt32.le_iff_toNat_le]
      rw [UInt32.lt_iff_toNat_lt] at this
      exact Nat.le_of_lt_succ this
    have := ih (fun d hd => h d (by simp [hd]))
    simp only [byteLen, List.map_cons, List.sum_cons, List.length_cons] at *
    omega

/-! ### C53 -/

/-- **C53, partial.** With a width `w`, the window chosen for a token of fewer than `w - 1`
characters lies within the query, is at most `w` wide and contains the token. Missing from the full
statement: longer tokens, for which it is false (`C53_window_refuted`). -/
theorem C53_window_partial (n w st en : Int) (h0 : 0 ≤ st) (h1 : st ≤ en) (h2 : en ≤ n) (hw : w < n)
    (hs : en - st < w - 1) :
    0 ≤ (findCenter n w st en).1 ∧ (findCenter n w st en).1 ≤ st ∧ en ≤ (findCenter n w st en).2 ∧
    (findCenter n w st en).2 ≤ n ∧ (findCenter n w st en).2 - (findCenter n w st en).1 ≤ w := by
  unfold findCenter
  dsimp only
  rw [if_neg (by omega), if_neg (by omega)]
  have hc : (st + en).tdiv 2 = (st + en) / 2 := Int.tdiv_eq_ediv_of_nonneg (by omega)
  have hw2 : (w - 1).tdiv 2 = (w - 1) / 2 := Int.tdiv_eq_ediv_of_nonneg (by omega)
  have hm : (min w (en - st + 1 + min st (n - en - 1))).tdiv 2
      = (min w (en - st + 1 + min st (n - en - 1))) / 2 := Int.tdiv_eq_ediv_of_nonneg (by omega)
  rw [hc, hw2, hm]
  generalize hM : min w (en - st + 1 + min st (n - en - 1)) = M
  have hM1 : M ≤ w := by omega
  have hM2 : M ≤ en - st + 1 + st := by omega
  have hM3 : M ≤ en - st + 1 + (n - en - 1) := by omega
  have hM4 : M = w ∨ M = en - st + 1 + st ∨ M = en - st + 1 + (n - en - 1) := by omega
  clear hM hm hc hw2
  split <;> split <;> split <;> (try split) <;> (try split) <;> (try split) <;> simp_all <;> omega

example : findCenter 40 12 20 26 = (17, 28) := by decide +kernel

/-- **C53, refuted.** A token of at least `w - 1` characters that starts less than `w` characters
before the end of the query gets a window that ends beyond the query. -/
theorem C53_window_refuted (n w st en : Int) (hw : w < n) (hs : w - 1 ≤ en - st) (he : n < st + w) :
    n < (findCenter n w st en).2 := by
  unfold findCenter
  dsimp only
  rw [if_neg (by omega), if_pos (by omega)]
  exact he

example : findCenter 10 5 6 10 = (6, 11) := by decide +kernel

/-! ### C51 and C52 -/

theorem goSlice_append (a b c : Str) (k : Nat) {i j : Int} (hi : i = a.length)
    (hj : j = (a.length + b.length : Nat)) : goSlice (a ++ b ++ c) k i j = .ok b := by
  subst hi hj
  unfold goSlice
  rw [if_pos (by simp only [List.length_append]; omega)]
  congr 1
  have h1 : ((a.length + b.length : Nat) - (a.length : Int)).toNat = b.length := by omega
  rw [h1, Int.toNat_natCast, List.append_assoc, List.append_assoc, List.drop_left, List.take_left]

/-- What the printing methods return when the window contains the token. -/
theorem print_window (m : PrintData) (pre tok post : Str) (hq : m.query = pre ++ tok ++ post)
    (hh : m.hasHL = true) (ho : m.pos.offset = pre.length) (hl : m.pos.len = tok.length)
    (h0 : 0 ≤ m.lo) (h1 : m.lo ≤ pre.length) (h2 : (pre.length + tok.length : Nat) ≤ m.ro)
    (h3 : m.ro ≤ m.query.length) :
    ∃ l r, Cut pre post l r ∧ m.queryPre = .ok l ∧ m.queryHL = .ok tok ∧ m.queryPost = .ok r ∧
      m.queryText = .ok (l ++ tok ++ r) ∧ m.hlOffset = l.length ∧
      ((l ++ tok ++ r).length : Int) ≤ m.ro - m.lo + 6 ∧
      (m.lo = 0 → m.ro = m.query.length → l = pre ∧ r = post) := by
  obtain ⟨a, x, hax, ha⟩ : ∃ a x, pre = a ++ x ∧ (a.length : Int) = m.lo :=
    ⟨pre.take m.lo.toNat, pre.drop m.lo.toNat, (List.take_append_drop _ _).symm, by
      rw [List.length_take]; omega⟩
  obtain ⟨y, b, hyb, hb⟩ : ∃ y b, post = y ++ b ∧
      ((pre.length + tok.length + y.length : Nat) : Int) = m.ro := by
    have hlen : m.query.length = pre.length + tok.length + post.length := by
      rw [hq]; simp only [List.length_append]
    exact ⟨post.take (m.ro.toNat - (pre.length + tok.length)),
      post.drop (m.ro.toNat - (pre.length + tok.length)), (List.take_append_drop _ _).symm, by
        rw [List.length_take]; omega⟩
  subst hax hyb
  simp only [List.length_append] at ho h1 h2 h3 hb
  have hn : m.query.length = a.length + x.length + tok.length + y.length + b.length := by
    rw [hq]; simp only [List.length_append]; omega
  have hro : (m.ro < m.query.length) ↔ b ≠ [] := by
    rw [← List.length_pos_iff, hn]; omega
  have hlo : (m.lo > 0) ↔ a ≠ [] := by rw [← List.length_pos_iff]; omega
  refine ⟨PrintData.dots (m.lo > 0) ++ x, y ++ PrintData.dots (m.ro < m.query.length), ?_, ?_, ?_, ?_,
    ?_, ?_, ?_, ?_⟩
  · unfold PrintData.dots
    by_cases c1 : m.lo > 0 <;> by_cases c2 : m.ro < m.query.length
    · rw [if_pos c1, if_pos c2]
      exact .both a x y b rfl (hlo.1 c1) rfl (hro.1 c2)
    · have : b = [] := by by_contra hc; exact c2 (hro.2 hc)
      subst this
      rw [if_pos c1, if_neg c2, List.append_nil]
      exact .left a x rfl (hlo.1 c1)
    · have : a = [] := by by_contra hc; exact c1 (hlo.2 hc)
      subst this
      rw [if_neg c1, if_pos c2]
      exact .right y b rfl (hro.1 c2)
    · have e1 : b = [] := by by_contra hc; exact c2 (hro.2 hc)
      have e2 : a = [] := by by_contra hc; exact c1 (hlo.2 hc)
      subst e1 e2
      rw [if_neg c1, if_neg c2]
      simp only [List.nil_append, List.append_nil]
      exact .whole
  · unfold PrintData.queryPre
    rw [if_neg (by simp [hh]), hq, show a ++ x ++ tok ++ (y ++ b) = a ++ x ++ (tok ++ (y ++ b)) by simp,
      goSlice_append a x _ _ ha.symm (by rw [ho])]
  · unfold PrintData.queryHL
    rw [if_neg (by simp [hh]), hq]
    exact goSlice_append _ _ _ _ (by rw [ho, List.length_append]) (by
      rw [ho, hl]; simp only [List.length_append]; omega)
  · unfold PrintData.queryPost
    rw [if_neg (by simp [hh]), hq,
      show a ++ x ++ tok ++ (y ++ b) = (a ++ x ++ tok) ++ y ++ b by simp,
      goSlice_append (a ++ x ++ tok) y _ _ (by rw [ho, hl]; simp only [List.length_append]; omega) (by
        rw [← hb]; simp only [List.length_append])]
  · unfold PrintData.queryText
    by_cases hc : m.lo = 0 ∧ m.ro = m.query.length
    · rw [if_pos hc]
      have e1 : b = [] := by
        by_contra hb'; have := hro.2 hb'; omega
      have e2 : a = [] := by
        by_contra ha'; have := hlo.2 ha'; omega
      subst e1 e2
      have c1 : ¬ m.lo > 0 := by omega
      have c2 : ¬ m.ro < m.query.length := by omega
      unfold PrintData.dots
      rw [if_neg c1, if_neg c2, hq]
    · rw [if_neg hc]
      conv => lhs; rw [hq]
      rw [show a ++ x ++ tok ++ (y ++ b) = a ++ (x ++ tok ++ y) ++ b by simp,
        goSlice_append a (x ++ tok ++ y) _ _ ha.symm (by
          rw [← hb]; simp only [List.length_append]; omega)]
      rw [show a ++ (x ++ tok ++ y) ++ b = a ++ x ++ tok ++ (y ++ b) by simp, ← hq]
      simp only [List.append_assoc]
  · unfold PrintData.hlOffset PrintData.dots
    rw [ho, List.length_append]
    by_cases c1 : m.lo > 0
    · rw [if_pos c1, if_pos c1]
      simp only [String.length_toList]
      have : "...".length = 3 := by decide
      omega
    · rw [if_neg c1, if_neg c1, List.length_nil]
      omega
  · unfold PrintData.dots
    have : "...".length = 3 := by decide
    simp only [List.length_append]
    split <;> split <;> simp only [String.length_toList, List.length_nil] <;> omega
  · intro e1 e2
    have c1 : ¬ m.lo > 0 := by omega
    have c2 : ¬ m.ro < m.query.length := by omega
    have e3 : b = [] := by by_contra hb'; exact c2 (hro.2 hb')
    have e4 : a = [] := by by_contra ha'; exact c1 (hlo.2 ha')
    subst e3 e4
    unfold PrintData.dots
    rw [if_neg c1, if_neg c2]
    simp

section
variable (pre tok post msg : Str) (spare : Nat) (w : Int) (k : Option MsgType) (p : Pos)

theorem Spec.Marks.ne_noPosition {p : Pos} {pre tok : Str} (h : Marks p pre tok) : p ≠ noPosition := by
  intro e
  have := h.1
  rw [e] at this
  simp only [noPosition] at this
  omega

/-- What the printing methods return for a message about the token `tok` of the query. -/
theorem print_methods (ha : Ascii pre) (hp : Marks p pre tok)
    (hw : w ≤ 0 ∨ ((pre ++ tok ++ post).length : Int) ≤ w ∨ (tok.length : Int) < w - 1) :
    ∃ l r, Cut pre post l r ∧
      (printData (pre ++ tok ++ post) spare w k p msg).queryPre = .ok l ∧
      (printData (pre ++ tok ++ post) spare w k p msg).queryHL = .ok tok ∧
      (printData (pre ++ tok ++ post) spare w k p msg).queryPost = .ok r ∧
      (printData (pre ++ tok ++ post) spare w k p msg).queryText = .ok (l ++ tok ++ r) ∧
      (printData (pre ++ tok ++ post) spare w k p msg).hlOffset = l.length ∧
      (0 < w → ((l ++ tok ++ r).length : Int) ≤ w + 6) ∧
      ((w ≤ 0 ∨ ((pre ++ tok ++ post).length : Int) ≤ w) → l = pre ∧ r = post) := by
  have hnp := hp.ne_noPosition
  obtain ⟨ho, hl⟩ := hp
  rw [byteLen_ascii ha] at ho
  have hn : (pre ++ tok ++ post).length = pre.length + tok.length + post.length := by
    simp only [List.length_append]
  by_cases hc : w ≤ 0 ∨ ((pre ++ tok ++ post).length : Int) ≤ w
  · have e : (if w ≤ 0 ∨ p = noPosition ∨ ((pre ++ tok ++ post).length : Int) ≤ w
        then ((0 : Int), ((pre ++ tok ++ post).length : Int))
        else findCenter (pre ++ tok ++ post).length w p.offset (p.offset + p.len))
        = (0, ((pre ++ tok ++ post).length : Int)) := if_pos (by tauto)
    obtain ⟨l, r, h⟩ := print_window (printData (pre ++ tok ++ post) spare w k p msg) pre tok post rfl
      (by simp [printData, hnp]) ho hl (by simp only [printData]; rw [e])
      (by simp only [printData]; rw [e]; exact Int.natCast_nonneg _)
      (by simp only [printData]; rw [e]; dsimp only; rw [hn]; omega)
      (by simp only [printData]; rw [e])
    obtain ⟨h1, h2, h3, h4, h5, h6, h7, h8⟩ := h
    have h9 : l = pre ∧ r = post := h8 (by simp only [printData]; rw [e]) (by simp only [printData]; rw [e])
    refine ⟨l, r, h1, h2, h3, h4, h5, h6, fun h0 => ?_, fun _ => h9⟩
    rw [h9.1, h9.2]
    omega
  · have e : (if w ≤ 0 ∨ p = noPosition ∨ ((pre ++ tok ++ post).length : Int) ≤ w
        then ((0 : Int), ((pre ++ tok ++ post).length : Int))
        else findCenter (pre ++ tok ++ post).length w p.offset (p.offset + p.len))
        = findCenter (pre ++ tok ++ post).length w p.offset (p.offset + p.len) := if_neg (by tauto)
    obtain ⟨g0, g1, g2, g3, g4⟩ := C53_window_partial (pre ++ tok ++ post).length w p.offset
      (p.offset + p.len) (by omega) (by omega) (by rw [hn]; omega) (by omega) (by omega)
    obtain ⟨l, r, h⟩ := print_window (printData (pre ++ tok ++ post) spare w k p msg) pre tok post rfl
      (by simp [printData, hnp]) ho hl (by simp only [printData]; rw [e]; exact g0)
      (by simp only [printData]; rw [e, ← ho]; exact g1)
      (by simp only [printData]; rw [e]; rw [ho, hl] at g2 ⊢; push_cast; exact g2)
      (by simp only [printData]; rw [e]; exact g3)
    obtain ⟨h1, h2, h3, h4, h5, h6, h7, -⟩ := h
    refine ⟨l, r, h1, h2, h3, h4, h5, h6, fun h0 => ?_, fun h => absurd h hc⟩
    simp only [printData] at h7
    rw [e] at h7
    omega

/-- **C51.** For a message about the token `tok` of an untruncated query, the highlighted part is
the token, the parts around it are the text before and after, and together they are the query. The
text before the token must be ASCII (`C52_bytes_refuted`). -/
theorem C51_reassemble (ha : Ascii pre) (hp : Marks p pre tok)
    (hw : w ≤ 0 ∨ ((pre ++ tok ++ post).length : Int) ≤ w) :
    let m := printData (pre ++ tok ++ post) spare w k p msg
    m.queryPre = .ok pre ∧ m.queryHL = .ok tok ∧ m.queryPost = .ok post ∧
      m.queryText = .ok (pre ++ tok ++ post) := by
  obtain ⟨l, r, -, h2, h3, h4, h5, -, -, h8⟩ := print_methods pre tok post msg spare w k p ha hp (by tauto)
  obtain ⟨rfl, rfl⟩ := h8 hw
  exact ⟨h2, h3, h4, h5⟩

/-- **C51, C53.** The same with a maximum width and a token that is short enough for it: the parts
are as before up to dots for what is cut off, and still reassemble the printed query, which has at
most the given width apart from the dots. -/
theorem C51_reassemble_truncated (ha : Ascii pre) (hp : Marks p pre tok)
    (hw : (tok.length : Int) < w - 1) :
    let m := printData (pre ++ tok ++ post) spare w k p msg
    ∃ l r, Cut pre post l r ∧ m.queryPre = .ok l ∧ m.queryHL = .ok tok ∧ m.queryPost = .ok r ∧
      m.queryText = .ok (l ++ tok ++ r) ∧ ((l ++ tok ++ r).length : Int) ≤ w + 6 := by
  obtain ⟨l, r, h1, h2, h3, h4, h5, -, h7, -⟩ :=
    print_methods pre tok post msg spare w k p ha hp (.inr (.inr hw))
  exact ⟨l, r, h1, h2, h3, h4, h5, h7 (by omega)⟩

/-- **C51.** Without a position the whole query is the first part and the others are empty. -/
theorem C51_no_position (q : Str) :
    let m := printData q spare w k noPosition msg
    m.queryPre = .ok q ∧ m.queryHL = .ok [] ∧ m.queryPost = .ok [] ∧ m.queryText = .ok q := by
  refine ⟨?_, ?_, ?_, ?_⟩ <;> simp [printData, PrintData.queryPre, PrintData.queryHL,
    PrintData.queryPost, PrintData.queryText]

/-- **C52.** Terminal output for a message about the token `tok`: the message, the query line and
the marker line. The marker line has as many spaces as the query line has characters before the
token, then one caret for each character of the token. -/
theorem C52_aligned (ha : Ascii pre) (hp : Marks p pre tok)
    (hw : w ≤ 0 ∨ ((pre ++ tok ++ post).length : Int) ≤ w ∨ (tok.length : Int) < w - 1) :
    ∃ l r, Cut pre post l r ∧
      ((w ≤ 0 ∨ ((pre ++ tok ++ post).length : Int) ≤ w) → l = pre ∧ r = post) ∧
      (printData (pre ++ tok ++ post) spare w k p msg).terminal =
        (kindText k ++ ": ".toList ++ msg ++ "\n    ".toList ++ (l ++ tok ++ r) ++ "\n    ".toList ++
          List.replicate l.length ' ' ++ List.replicate tok.length '^' ++ "\n".toList, none) := by
  have hnp := hp.ne_noPosition
  obtain ⟨l, r, h1, -, -, -, h5, h6, -, h8⟩ := print_methods pre tok post msg spare w k p ha hp hw
  refine ⟨l, r, h1, h8, ?_⟩
  unfold PrintData.terminal
  have hh : (printData (pre ++ tok ++ post) spare w k p msg).hasHL = true := by simp [printData, hnp]
  have hl : (printData (pre ++ tok ++ post) spare w k p msg).pos.len = tok.length := hp.2
  have r1 : goRepeat ' ' (l.length : Int) = .ok (List.replicate l.length ' ') := by
    unfold goRepeat; rw [if_pos (Int.natCast_nonneg _), Int.toNat_natCast]
  have r2 : goRepeat '^' (tok.length : Int) = .ok (List.replicate tok.length '^') := by
    unfold goRepeat; rw [if_pos (Int.natCast_nonneg _), Int.toNat_natCast]
  rw [h5, h6, hl, r1, r2, hh]
  rfl

end

/-- **C52.** The printed message begins with what it is and the text: an error of the parser or a
reported one, a warning, or a hint, which is printed as information; whatever the query, position and
width, even if printing then ends with an error. -/
theorem C52_heading (q msg : Str) (spare : Nat) (w : Int) (p : Pos) :
    (("ERROR: ".toList ++ msg) <+: (printData q spare w none p msg).terminal.1) ∧
    (("ERROR: ".toList ++ msg) <+: (printData q spare w (some .error) p msg).terminal.1) ∧
    (("WARNING: ".toList ++ msg) <+: (printData q spare w (some .warning) p msg).terminal.1) ∧
    (("INFO: ".toList ++ msg) <+: (printData q spare w (some .hint) p msg).terminal.1) := by
  have grow : ∀ {a b : Str} (c : Str), a <+: b → a <+: b ++ c := fun c h => h.trans (List.prefix_append _ _)
  have key : ∀ (m : PrintData) (x : Str), m.kind ++ ": ".toList ++ m.message = x → x <+: m.terminal.1 := by
    rintro m x rfl
    unfold PrintData.terminal
    dsimp only
    split
    · exact List.prefix_refl _
    · split
      · exact List.prefix_append _ _
      · split
        · exact grow _ (grow _ (List.prefix_append _ _))
        · split
          · exact grow _ (grow _ (grow _ (List.prefix_append _ _)))
          · exact grow _ (grow _ (grow _ (grow _ (grow _ (List.prefix_append _ _)))))
  exact ⟨key _ _ rfl, key _ _ rfl, key _ _ rfl, key _ _ rfl⟩

/-- Hypotheses of the theorems above: the token `"x"` of a query. -/
example : Ascii "f:~".toList ∧ Marks ⟨1, 4, 3, 3⟩ "f:~".toList "\"x\"".toList ∧
    (printData ("f:~".toList ++ "\"x\"".toList ++ " or g:1".toList) 0 10 (some .warning) ⟨1, 4, 3, 3⟩
      "m".toList).terminal = ("WARNING: m\n    f:~\"x\" or ...\n       ^^^\n".toList, none) := by
  refine ⟨?_, ?_, ?_⟩
  · unfold Ascii; decide
  · unfold Marks; decide
  · decide +kernel

/-- **C52, refuted.** Offsets count bytes, but the query is indexed by character. After a character
outside ASCII the marker is not under the token `"x"`, and the highlighted part is not the token:
the position even reaches beyond the query. -/
theorem C52_bytes_refuted :
    let pre := "é:~".toList
    let tok := "\"x\"".toList
    let m := printData (pre ++ tok) 0 0 (some .warning) ⟨1, 4, 4, 3⟩ "m".toList
    Marks ⟨1, 4, 4, 3⟩ pre tok ∧
    m.terminal = ("WARNING: m\n    é:~\"x\"\n        ^^^\n".toList, none) ∧
    m.queryHL = .error .outOfRange := by
  refine ⟨?_, ?_, ?_⟩
  · unfold Marks; decide +kernel
  · decide +kernel
  · decide +kernel

theorem byteLen_ge (s : Str) : s.length ≤ byteLen s := by
  induction s with
  | nil => exact Nat.le_refl _
  | cons c s ih =>
    have := Char.utf8Size_pos c
    simp only [byteLen, List.map_cons, List.sum_cons, List.length_cons] at *
    omega

theorem byteLen_eq_iff {s : Str} : byteLen s = s.length ↔ Ascii s := by
  refine ⟨fun h => ?_, byteLen_ascii⟩
  induction s with
  | nil => intro c hc; simp at hc
  | cons c s ih =>
    have hc := Char.utf8Size_pos c
    have hs := byteLen_ge s
    have e : byteLen (c :: s) = c.utf8Size + byteLen s := by simp [byteLen]
    rw [e, List.length_cons] at h
    intro d hd
    rcases List.mem_cons.1 hd with rfl | hd
    · have : d.utf8Size = 1 := by omega
      rw [Char.utf8Size_eq_one_iff, UInt32.le_iff_toNat_le] at this
      rw [UInt32.lt_iff_toNat_lt]
      exact Nat.lt_succ_of_le this
    · exact ih (by omega) d hd

/-- **C51, exactly.** Without truncation the part before the highlighted one is the text before the token
iff that text is ASCII. -/
theorem C51_pre_exact (pre tok post msg : Str) (spare : Nat) (w : Int) (k : Option MsgType) (p : Pos)
    (hp : Marks p pre tok) (hw : w ≤ 0 ∨ ((pre ++ tok ++ post).length : Int) ≤ w) :
    (printData (pre ++ tok ++ post) spare w k p msg).queryPre = .ok pre ↔ Ascii pre := by
  refine ⟨fun h => byteLen_eq_iff.1 ?_, fun h => (C51_reassemble pre tok post msg spare w k p h hp hw).1⟩
  have hnp := hp.ne_noPosition
  have hlo : (printData (pre ++ tok ++ post) spare w k p msg).lo = 0 := by
    unfold printData
    dsimp only
    rw [if_pos (by rcases hw with h | h; exacts [.inl h, .inr (.inr h)])]
  unfold PrintData.queryPre at h
  rw [if_neg (by simp [printData, hnp]), hlo] at h
  unfold goSlice at h
  split at h
  · cases h
  · rename_i s hs
    split at hs
    · rename_i hb
      have e1 : PrintData.dots ((0 : Int) > 0) ++ s = pre := by simpa using h
      have e2 : PrintData.dots ((0 : Int) > 0) = [] := rfl
      rw [e2, List.nil_append] at e1
      subst e1
      have e3 := congrArg List.length (Except.ok.inj hs)
      have ho : (printData (s ++ tok ++ post) spare w k p msg).pos.offset = byteLen s := hp.1
      have hq : (printData (s ++ tok ++ post) spare w k p msg).query = s ++ tok ++ post := rfl
      have hsp : (printData (s ++ tok ++ post) spare w k p msg).spare = spare := rfl
      rw [ho, hq, hsp] at e3 hb
      simp only [Int.toNat_zero, List.drop_zero, Int.sub_zero, Int.toNat_natCast, List.length_take,
        List.length_append, List.length_replicate] at e3 hb
      omega
    · cases hs

/-- **C52, exactly.** Without truncation the marker line has a number of spaces, then one caret for each
character of the token; the spaces are as many as characters stand before the token iff these are ASCII. -/
theorem C52_aligned_exact (pre tok post msg : Str) (spare : Nat) (w : Int) (k : Option MsgType) (p : Pos)
    (hp : Marks p pre tok) (hw : w ≤ 0 ∨ ((pre ++ tok ++ post).length : Int) ≤ w) :
    ∃ n, (printData (pre ++ tok ++ post) spare w k p msg).terminal =
        (kindText k ++ ": ".toList ++ msg ++ "\n    ".toList ++ (pre ++ tok ++ post) ++ "\n    ".toList ++
          List.replicate n ' ' ++ List.replicate tok.length '^' ++ "\n".toList, none) ∧
      (n = pre.length ↔ Ascii pre) := by
  refine ⟨byteLen pre, ?_, byteLen_eq_iff⟩
  have hnp := hp.ne_noPosition
  have hwin : (printData (pre ++ tok ++ post) spare w k p msg).lo = 0 ∧
      (printData (pre ++ tok ++ post) spare w k p msg).ro = ((pre ++ tok ++ post).length : Int) := by
    unfold printData
    dsimp only
    rw [if_pos (by rcases hw with h | h; exacts [.inl h, .inr (.inr h)])]
    exact ⟨rfl, rfl⟩
  have hq : (printData (pre ++ tok ++ post) spare w k p msg).queryText = .ok (pre ++ tok ++ post) := by
    unfold PrintData.queryText
    have e : (printData (pre ++ tok ++ post) spare w k p msg).query = pre ++ tok ++ post := rfl
    have e' : (printData (pre ++ tok ++ post) spare w k p msg).spare = spare := rfl
    rw [hwin.1, hwin.2, e, e']
    split
    · rfl
    · rename_i h
      exact absurd ⟨rfl, rfl⟩ h
  have hh : (printData (pre ++ tok ++ post) spare w k p msg).hasHL = true := by simp [printData, hnp]
  have hl : (printData (pre ++ tok ++ post) spare w k p msg).pos.len = tok.length := hp.2
  have ho : (printData (pre ++ tok ++ post) spare w k p msg).hlOffset = (byteLen pre : Int) := by
    have : (printData (pre ++ tok ++ post) spare w k p msg).pos.offset = byteLen pre := hp.1
    unfold PrintData.hlOffset
    rw [hwin.1, this]
    simp
  have r1 : goRepeat ' ' (byteLen pre : Int) = .ok (List.replicate (byteLen pre) ' ') := by
    unfold goRepeat; rw [if_pos (Int.natCast_nonneg _), Int.toNat_natCast]
  have r2 : goRepeat '^' (tok.length : Int) = .ok (List.replicate tok.length '^') := by
    unfold goRepeat; rw [if_pos (Int.natCast_nonneg _), Int.toNat_natCast]
  unfold PrintData.terminal
  rw [hq, ho, hl, r1, r2, hh]
  rfl

/-- **C53, refuted.** A width of 5 and a token of four characters at the end of the query: printing
ends with an error (or prints a NUL character if the query happens to have spare capacity). -/
theorem C53_print_refuted :
    (printData "abcdefghij".toList 0 5 none ⟨1, 7, 6, 4⟩ "m".toList).terminal =
      ("ERROR: m\n    ".toList, some .outOfRange) ∧
    (printData "abcdefghij".toList 2 5 none ⟨1, 7, 6, 4⟩ "m".toList).queryText =
      .ok ("...ghij".toList ++ [Char.ofNat 0]) := by
  constructor <;> decide +kernel

end Aql
